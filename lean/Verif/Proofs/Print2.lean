import Verif.Proofs.Print
import Verif.Props.Valid
import Verif.Proofs.Program10
/-
Replacing one method of a program; adding an output.
-/
namespace Csdl.Prog
open Csdl
variable {K F : Type}

/-! ### replacing a method -/
section replaced
variable {c0 c0' : Body K F}

theorem Replaced.symm {b b' : Body K F} {path0 : List Name} (h : Replaced c0 c0' b path0 b') : Replaced c0' c0 b' path0 b := by
  induction h with
  | here => exact .here
  | stmt s _ ih => exact .stmt s ih
  | sub i n p r _ ih => exact .sub i n p r ih
  | rest i n p s _ ih => exact .rest i n p s ih

/-- the model is above the replaced one -/
theorem Replaced.above {b b' : Body K F} {path0 : List Name} (h : Replaced c0 c0' b path0 b') : ∀ {n : Name} {path : List Name}, path0 = n :: path →
    (∀ k, b'.stmts k = b.stmts k) ∧ ∃ L1 L2 p s s', b.subs = L1 ++ (n, p, s) :: L2 ∧ b'.subs = L1 ++ (n, p, s') :: L2 ∧ Replaced c0 c0' s path s' := by
  induction h with
  | here => intro n path e; cases e
  | stmt s _ ih =>
    intro n path e
    obtain ⟨h1, h2⟩ := ih e
    exact ⟨fun k => by simp only [Body.stmts, h1], h2⟩
  | @sub i n p s s' r path h _ =>
    intro n' path' e
    injection e with e1 e2
    subst e1; subst e2
    exact ⟨fun k => rfl, [], r.subs, p, s, s', rfl, rfl, h⟩
  | rest i n p s _ ih =>
    intro n' path' e
    obtain ⟨h1, L1, L2, p', s1, s2, h2, h3, h4⟩ := ih e
    exact ⟨fun k => h1 k, (n, p, s) :: L1, L2, p', s1, s2, by simp [Body.subs, h2], by simp [Body.subs, h3], h4⟩

theorem Replaced.nil {b b' : Body K F} (h : Replaced c0 c0' b [] b') : b = c0 ∧ b' = c0' := by cases h; exact ⟨rfl, rfl⟩

theorem Replaced.bat {b b' : Body K F} {path0 : List Name} (h : Replaced c0 c0' b path0 b') : BAt b path0 c0 := by
  induction path0 generalizing b b' with
  | nil => rw [← h.nil.1]; exact .here _
  | cons n path ih =>
    obtain ⟨_, L1, L2, p, s, s', h1, _, h2⟩ := h.above rfl
    exact .down (p := p) (by rw [h1]; simp) (ih h2)

/-- the same model before and after -/
theorem Replaced.at {path : List Name} {c : Body K F} {b : Body K F} (hc : BAt b path c) : ∀ {b' : Body K F} {path0 : List Name}, Replaced c0 c0' b path0 b' →
    (∀ path c, BAt b path c → (c.subs.map (·.1)).Nodup) → c0.subs = c0'.subs →
    (∃ rest c', path0 = path ++ rest ∧ BAt b' path c' ∧ Replaced c0 c0' c rest c') ∨ (BAt b' path c ∧ ¬ path <+: path0) := by
  induction hc with
  | here b => intro b' path0 h _ _; exact Or.inl ⟨path0, b', rfl, .here _, h⟩
  | @down b n p sub path c hm hc ih =>
    intro b' path0 h hnd hs
    cases path0 with
    | nil =>
      obtain ⟨rfl, rfl⟩ := h.nil
      exact Or.inr ⟨.down (hs ▸ hm) hc, by simp⟩
    | cons n0 path0 =>
      obtain ⟨_, L1, L2, p', s, s', h1, h2, h3⟩ := h.above rfl
      by_cases hn : n = n0
      · subst hn
        have e : (p, sub) = (p', s) := by
          have hd := hnd [] b (.here _)
          rw [h1] at hd hm
          simp only [List.map_append, List.map_cons, List.nodup_append, List.nodup_cons] at hd
          simp only [List.mem_append, List.mem_cons, Prod.mk.injEq] at hm
          rcases hm with hm | ⟨_, rfl, rfl⟩ | hm
          · exact absurd rfl (hd.2.2 n (List.mem_map.2 ⟨_, hm, rfl⟩) n (by simp))
          · rfl
          · exact absurd (List.mem_map.2 ⟨_, hm, rfl⟩) hd.2.1.1
        obtain ⟨rfl, rfl⟩ := Prod.mk.inj e
        rcases ih h3 (fun path c hc => hnd (n :: path) c (.down hm hc)) hs with ⟨rest, c', rfl, g1, g2⟩ | ⟨g1, g2⟩
        · exact Or.inl ⟨rest, c', rfl, .down (p := p) (by rw [h2]; simp) g1, g2⟩
        · exact Or.inr ⟨.down (p := p) (by rw [h2]; simp) g1, fun hp => g2 (List.cons_prefix_cons.1 hp).2⟩
      · refine Or.inr ⟨.down (p := p) (sub := sub) ?_ hc, fun hp => hn (List.cons_prefix_cons.1 hp).1⟩
        rw [h1] at hm
        rw [h2]
        simp only [List.mem_append, List.mem_cons, Prod.mk.injEq] at hm ⊢
        rcases hm with hm | ⟨rfl, _⟩ | hm
        · exact Or.inl hm
        · exact absurd rfl hn
        · exact Or.inr (Or.inr hm)

/-- the submodel of a model that contains the replaced one -/
theorem Replaced.subs {b b' : Body K F} {path0 : List Name} (h : Replaced c0 c0' b path0 b') (hs : c0.subs = c0'.subs) {n : Name} {p : Option (List Name)} {sub : Body K F} (hm : (n, p, sub) ∈ b.subs) :
    (n, p, sub) ∈ b'.subs ∨ ∃ path sub', path0 = n :: path ∧ (n, p, sub') ∈ b'.subs ∧ Replaced c0 c0' sub path sub' := by
  cases path0 with
  | nil => obtain ⟨rfl, rfl⟩ := h.nil; exact Or.inl (hs ▸ hm)
  | cons n0 path =>
    obtain ⟨_, L1, L2, p', s, s', h1, h2, h3⟩ := h.above rfl
    rw [h1] at hm
    rw [h2]
    simp only [List.mem_append, List.mem_cons, Prod.mk.injEq] at hm ⊢
    rcases hm with hm | ⟨rfl, rfl, rfl⟩ | hm
    · exact Or.inl (Or.inl hm)
    · exact Or.inr ⟨path, s', rfl, Or.inr (Or.inl ⟨rfl, rfl, rfl⟩), h3⟩
    · exact Or.inl (Or.inr (Or.inr hm))

theorem Replaced.locals {b b' : Body K F} {n : Name} {path : List Name} (h : Replaced c0 c0' b (n :: path) b') : b'.locals = b.locals := by
  obtain ⟨h1, _⟩ := h.above rfl
  simp only [Body.locals, Body.shapes, h1]

/-- promoted names: those of before, and those of new variables of the replaced model -/
theorem promotedAs_replaced {m : Model} {path : List Name} {k : VarKind} {w : VarInfo} {p : Name} (hp : PromotedAs m path k w p) :
    ∀ {b b' : Body K F} {path0 : List Name}, Replaced c0 c0' b path0 b' → c0.subs = c0'.subs → m = b.toModel → PromotedAs b'.toModel path k w p ∨ (path = path0 ∧ w ∈ c0.locals.vars k ∧ w ∉ c0'.locals.vars k) := by
  induction hp with
  | @here l subs k v hv =>
    intro b b' path0 h hs e
    cases e
    cases path0 with
    | nil =>
      obtain ⟨rfl, rfl⟩ := h.nil
      by_cases hw : v ∈ b'.locals.vars k
      · exact Or.inl (.here hw)
      · exact Or.inr ⟨rfl, hv, hw⟩
    | cons n path => exact Or.inl (.here (h.locals ▸ hv))
  | up hs _ hpr ih =>
    intro b b' path0 h hs0 e
    cases e
    obtain ⟨sub, h1, h2⟩ := mem_toSubs.1 hs
    rcases h.subs hs0 h1 with h1 | ⟨path', sub', rfl, h3, h4⟩
    · exact Or.inl (.up (mem_toSubs.2 ⟨sub, h1, h2⟩) (by assumption) hpr)
    · rcases ih h4 hs0 h2 with h5 | ⟨rfl, h5⟩
      · exact Or.inl (.up (s := ⟨_, _, sub'.toModel⟩) (mem_toSubs.2 ⟨sub', h3, rfl⟩) h5 hpr)
      · exact Or.inr ⟨rfl, h5⟩
  | stay hs _ hpr ih =>
    intro b b' path0 h hs0 e
    cases e
    obtain ⟨sub, h1, h2⟩ := mem_toSubs.1 hs
    rcases h.subs hs0 h1 with h1 | ⟨path', sub', rfl, h3, h4⟩
    · exact Or.inl (.stay (mem_toSubs.2 ⟨sub, h1, h2⟩) (by assumption) hpr)
    · rcases ih h4 hs0 h2 with h5 | ⟨rfl, h5⟩
      · exact Or.inl (.stay (s := ⟨_, _, sub'.toModel⟩) (mem_toSubs.2 ⟨sub', h3, rfl⟩) h5 hpr)
      · exact Or.inr ⟨rfl, h5⟩

/-- the connections -/
theorem Replaced.issued {b b' : Body K F} {path0 : List Name} (h : Replaced c0 c0' b path0 b') (hs : c0.toSubs = c0'.toSubs) (hc : c0.locals.connections = c0'.locals.connections) :
    issuedPostSubs Local.connections b'.toSubs = issuedPostSubs Local.connections b.toSubs := by
  induction h with
  | here => rw [hs]
  | stmt s _ ih => exact ih
  | @sub i n p s s' r path h ih =>
    simp only [Body.toSubs, issuedPostSubs, issuedPost, ih]
    cases path with
    | nil => obtain ⟨rfl, rfl⟩ := h.nil; rw [hc]
    | cons n path => rw [h.locals]
  | rest i n p s _ ih => simp only [Body.toSubs, issuedPostSubs, ih]

theorem Replaced.issuedAll {b b' : Body K F} {path0 : List Name} (h : Replaced c0 c0' b path0 b') (hs : c0.toSubs = c0'.toSubs) (hc : c0.locals.connections = c0'.locals.connections) :
    issuedPost Local.connections b'.toModel = issuedPost Local.connections b.toModel := by
  simp only [Body.toModel, issuedPost, h.issued hs hc]
  cases path0 with
  | nil => obtain ⟨rfl, rfl⟩ := h.nil; rw [hc]
  | cons n path => rw [h.locals]

theorem Replaced.maxObjects {b b' : Body K F} {path0 : List Name} (h : Replaced c0 c0' b path0 b') (hc : c0.maxObjects ≤ c0'.maxObjects) : b.maxObjects ≤ b'.maxObjects := by
  induction h with
  | here => exact hc
  | stmt s _ ih => simp only [Body.maxObjects]; omega
  | sub i n p r _ ih => simp only [Body.maxObjects]; omega
  | rest i n p s _ ih => simp only [Body.maxObjects]; omega

end replaced

theorem toSubs_of_subs : ∀ (b : Body K F), b.toSubs = b.subs.foldr (fun s r => .cons s.1 s.2.1 s.2.2.toModel r) .nil
  | .done => rfl
  | .stmt _ r => toSubs_of_subs r
  | .add _ n p sub r => by simp [Body.toSubs, Body.subs, toSubs_of_subs r, Body.toModel]

theorem Grew.toSubs {f : F} {args : List Nat} {sh : Shape} {nm : Name} {c c' : Body K F} (g : Grew f args sh nm c c') : c.toSubs = c'.toSubs := by rw [toSubs_of_subs, toSubs_of_subs, g.subs]

theorem maxObjects_append (e : Body K F) : ∀ b : Body K F, (b.append e).maxObjects = b.maxObjects + e.maxObjects
  | .done => by simp [Body.append, Body.maxObjects]
  | .stmt s r => by simp only [Body.append, Body.maxObjects, maxObjects_append e r]; omega
  | .add _ _ _ sub r => by simp only [Body.append, Body.maxObjects, maxObjects_append e r]; omega

/-! ### names denote one variable -/

theorem dotFree_body [Zero K] {b : Body K F} (hm : ∀ path c, BAt b path c → MethodOk c) (hg : GoodNames b) : DotFree b.toModel := by
  intro path l subs hat
  obtain ⟨c, hc, he⟩ := BAt.locals hat
  obtain ⟨rfl, rfl⟩ : l = c.locals ∧ subs = c.toSubs := by
    unfold Body.toModel at he
    injection he with h1 h2
    exact ⟨h1, h2⟩
  have hmc := hm path c hc
  have hok : ∀ {n : Nat} {s : Stmt K F} {name : Name}, c.Has n s → (s = s) → (∃ sh v, s = .input name sh v) ∨ (∃ x, s = .register name x) ∨ (∃ sh v, s = .output name sh v) → '.' ∉ name := by
    intro n s name h _ hs
    obtain ⟨L1, L2, e, ho, _⟩ := hmc.at h
    refine banned_no_dot ((allowed_iff name).2 ?_)
    rcases hs with ⟨sh, v, rfl⟩ | ⟨x, rfl⟩ | ⟨sh, v, rfl⟩
    · exact ho
    · exact ho.1
    · exact ho.1
  refine ⟨?_, ?_, ?_⟩
  · intro k v hv
    cases k with
    | source =>
      have hv : v ∈ c.locals.inputs ++ c.locals.outputs := hv
      rcases List.mem_append.1 hv with hv | hv
      · obtain ⟨x, hx, rfl⟩ := List.mem_map.1 hv
        obtain ⟨⟨n, t⟩, h1, h2⟩ := List.mem_filterMap.1 hx
        cases t <;> simp only [inputOf, Option.some.injEq, reduceCtorEq] at h2
        subst h2
        exact hok h1 rfl (Or.inl ⟨_, _, rfl⟩)
      · obtain ⟨x, hx, rfl⟩ := List.mem_map.1 hv
        obtain ⟨⟨n, t⟩, h1, h2⟩ := List.mem_filterMap.1 hx
        cases t <;> simp only [outputOf, Option.some.injEq, reduceCtorEq] at h2
        · subst h2; exact hok h1 rfl (Or.inr (Or.inr ⟨_, _, rfl⟩))
        · subst h2; exact hok h1 rfl (Or.inr (Or.inl ⟨_, rfl⟩))
    | target => exact (hg.declared path c hc v hv).1
  · intro t ht
    obtain ⟨x, hx, h1, _⟩ := toSubs_mem ht
    rw [h1]
    exact ⟨(hg.subs path c hc x hx).1, banned_no_dot ((allowed_iff _).2 (hmc.subAllowed x hx))⟩
  · rw [toSubs_names]
    rw [Body.added, List.map_map]
    exact hmc.subNames

theorem resolves_body [Zero K] {b : Body K F} (hm : ∀ path c, BAt b path c → MethodOk c) (hg : GoodNames b)
    (h1 : ∀ path b', BAt b path b' → ∀ p path1 v1 path2 v2, PromotedAs b'.toModel path1 .source v1 p → PromotedAs b'.toModel path2 .source v2 p → path1 = path2)
    (h2 : ∀ path b', BAt b path b' → ∀ p k1 path1 v1 k2 path2 v2, PromotedAs b'.toModel path1 k1 v1 p → PromotedAs b'.toModel path2 k2 v2 p → path1 ≠ path2 → v1.shape.size = v2.shape.size)
    (h3 : ∀ path b', BAt b path b' → ∀ n q sub, (n, some q, sub) ∈ b'.subs → ∀ x ∈ q, '.' ∉ x ∧ ∃ path' k v, PromotedAs sub.toModel path' k v x) :
    ∃ r, resolve b.toModel none = .ok r := by
  have hd := dotFree_body hm hg
  cases hr : resolve b.toModel none with
  | ok r => exact ⟨r, rfl⟩
  | error e =>
    exfalso
    cases e with
    | duplicateSource =>
      obtain ⟨path, m', g1, p, p1, v1, p2, v2, g2, g3, g4⟩ := C05_duplicate_error_sound _ hd hr
      obtain ⟨c, hc, rfl⟩ := BAt.locals g1
      exact g4 (h1 path c hc p p1 v1 p2 v2 g2 g3)
    | shapeMismatch =>
      obtain ⟨path, m', g1, p, k1, p1, v1, k2, p2, v2, g2, g3, g4, g5⟩ := C06_shape_error_sound _ hd hr
      obtain ⟨c, hc, rfl⟩ := BAt.locals g1
      exact g5 (h2 path c hc p k1 p1 v1 k2 p2 v2 g2 g3 g4)
    | invalidPromotes =>
      obtain ⟨path, l, subs, s, q, x, g1, g2, g3, g4, g5⟩ := C07_valid_promotes_accepted _ hd hr
      obtain ⟨c, hc, e⟩ := BAt.locals g1
      unfold Body.toModel at e
      injection e with e1 e2
      subst e2
      obtain ⟨sub, g6, g7⟩ := mem_toSubs.1 g2
      rw [g3] at g6
      obtain ⟨g8, g9⟩ := h3 path c hc _ q sub g6 x g4
      exact g5 ⟨g8, by rw [g7]; exact g9⟩
    | sizeMismatch => exact C08_size_mismatch_unreachable _ _ hr

end Csdl.Prog
