import Verif.Proofs.Refactor2
import Verif.Props.ValidProgram
/-
For C99: the program with the replaced method is valid.
-/
namespace Csdl.Prog
open Csdl Csdl.Arith
variable {K F : Type}

theorem Replaced.subOf {c c' b b' : Body K F} {q : List Name} (h : Replaced c c' b q b') (hs : c.subs = c'.subs) {n : Name} {p : Option (List Name)} {sub' : Body K F} (hm : (n, p, sub') ∈ b'.subs) :
    ∃ sub, (n, p, sub) ∈ b.subs ∧ (sub = sub' ∨ ∃ rest, Replaced c c' sub rest sub') := by
  cases q with
  | nil =>
    obtain ⟨rfl, rfl⟩ := h.nil
    exact ⟨sub', hs ▸ hm, Or.inl rfl⟩
  | cons m path =>
    obtain ⟨_, L1, L2, p', s, s', h1, h2, h3⟩ := h.above rfl
    rw [h2] at hm
    rw [h1]
    rcases List.mem_append.1 hm with hm | hm
    · exact ⟨sub', List.mem_append_left _ hm, Or.inl rfl⟩
    · rcases List.mem_cons.1 hm with e | hm
      · cases e
        exact ⟨s, by simp, Or.inr ⟨path, h3⟩⟩
      · exact ⟨sub', List.mem_append_right _ (List.mem_cons_of_mem _ hm), Or.inl rfl⟩

theorem Replaced.oldAt {c c' d' b' : Body K F} {path : List Name} (h : BAt b' path d') (hs : c.subs = c'.subs) : ∀ {b : Body K F} {q : List Name}, Replaced c c' b q b' → ∃ d, BAt b path d ∧ (d = d' ∨ ∃ rest, Replaced c c' d rest d') := by
  induction h with
  | here b' => intro b q h; exact ⟨b, .here _, Or.inr ⟨q, h⟩⟩
  | @down b' n p sub' path d' hm hd ih =>
    intro b q h
    obtain ⟨sub, h1, rfl | ⟨rest, h2⟩⟩ := h.subOf hs hm
    · exact ⟨d', .down h1 hd, Or.inl rfl⟩
    · obtain ⟨d, h3, h4⟩ := ih h2
      exact ⟨d, .down h1 h3, h4⟩

theorem Replaced.subNames {c c' b b' : Body K F} {q : List Name} (h : Replaced c c' b q b') (hs : c.subs = c'.subs) : b.subs.map (·.1) = b'.subs.map (·.1) := by
  cases q with
  | nil =>
    obtain ⟨rfl, rfl⟩ := h.nil
    rw [hs]
  | cons m path =>
    obtain ⟨_, L1, L2, p', s, s', h1, h2, h3⟩ := h.above rfl
    rw [h1, h2]
    simp

theorem Replaced.model {c c' b b' : Body K F} {q : List Name} (h : Replaced c c' b q b') (hi : SameInterface c c') : b.toModel = b'.toModel := by
  unfold Body.toModel
  rw [h.localsEq hi.locals, h.toSubs hi.locals (by rw [toSubs_of_subs, toSubs_of_subs, hi.subs])]

theorem MethodOk.congr [Zero K] {d d' : Body K F} (h : MethodOk d) (h1 : d.stmts 0 = d'.stmts 0) (h2 : d.subs.map (·.1) = d'.subs.map (·.1)) : MethodOk d' where
  stmts := fun L y L' e => h.stmts L y L' (h1.trans e)
  assigned := by
    unfold Body.Has Body.Assigned Body.Has
    rw [← h1]
    exact h.assigned
  subNames := h2 ▸ h.subNames
  subAllowed := fun s hs => by
    have : s.1 ∈ d.subs.map (·.1) := by rw [h2]; exact List.mem_map_of_mem hs
    obtain ⟨t, ht, e⟩ := List.mem_map.1 this
    rw [← e]
    exact h.subAllowed t ht
  nonEmpty := by
    rcases h.nonEmpty with h | h | h
    · exact Or.inl (by simpa only [Body.locals, Body.shapes, h1] using h)
    · exact Or.inr (Or.inl (by simpa only [Body.locals, Body.shapes, h1] using h))
    · refine Or.inr (Or.inr fun e => h ?_)
      rw [e] at h2
      simpa using h2

/-- what is known about a method of the new program -/
theorem Replaced.old [Zero K] {c c' d' b b' : Body K F} {q path : List Name} (h : Replaced c c' b q b') (hi : SameInterface c c') (hd : BAt b' path d') : ∃ d, BAt b path d ∧ d.locals = d'.locals ∧ d.toModel = d'.toModel ∧
    d.subs.map (·.1) = d'.subs.map (·.1) ∧ (MethodOk d → MethodOk c' → MethodOk d') ∧ ∀ n p sub', (n, p, sub') ∈ d'.subs → ∃ sub, (n, p, sub) ∈ d.subs ∧ sub.toModel = sub'.toModel := by
  obtain ⟨d, h1, rfl | ⟨rest, h2⟩⟩ := Replaced.oldAt hd hi.subs h
  · exact ⟨d, h1, rfl, rfl, rfl, fun h _ => h, fun n p sub hs => ⟨sub, hs, rfl⟩⟩
  · refine ⟨d, h1, h2.localsEq hi.locals, h2.model hi, h2.subNames hi.subs, fun k1 k2 => ?_, fun n p sub' hs => ?_⟩
    · cases rest with
      | nil => obtain ⟨rfl, rfl⟩ := h2.nil; exact k2
      | cons m rest => exact k1.congr ((h2.above rfl).1 0).symm (h2.subNames hi.subs)
    · obtain ⟨sub, k1, rfl | ⟨r, k2⟩⟩ := h2.subOf hi.subs hs
      · exact ⟨sub, k1, rfl⟩
      · exact ⟨sub, k1, k2.model hi⟩

theorem NamesValid.replaced [Zero K] {c c' b b' : Body K F} {q : List Name} (hv : NamesValid b) (h : Replaced c c' b q b') (hi : SameInterface c c') (hm : MethodOk c') : NamesValid b' where
  methods := fun path d' hd => by
    obtain ⟨d, h1, _, _, _, h5, _⟩ := h.old hi hd
    exact h5 (hv.methods _ _ h1) hm
  names := by
    constructor
    · intro path d' hd
      obtain ⟨d, h1, h2, _, h4, _⟩ := h.old hi hd
      exact h2 ▸ hv.names.sources _ _ h1
    · intro path d' hd
      obtain ⟨d, h1, h2, _, h4, _⟩ := h.old hi hd
      exact h2 ▸ hv.names.declared _ _ h1
    · intro path d' hd
      obtain ⟨d, h1, h2, _, h4, _⟩ := h.old hi hd
      exact h2 ▸ hv.names.notAuto _ _ h1
    · intro path d' hd s hs
      obtain ⟨d, h1, h2, _, h4, _⟩ := h.old hi hd
      have : s.1 ∈ d.subs.map (·.1) := by rw [h4]; exact List.mem_map_of_mem hs
      obtain ⟨t, ht, e⟩ := List.mem_map.1 this
      rw [← e]
      exact h2 ▸ hv.names.subs _ _ h1 t ht
  oneSource := fun path d' hd => by
    obtain ⟨d, h1, _, h3, _⟩ := h.old hi hd
    exact h3 ▸ hv.oneSource _ _ h1
  sizes := fun path d' hd => by
    obtain ⟨d, h1, _, h3, _⟩ := h.old hi hd
    exact h3 ▸ hv.sizes _ _ h1
  promotes := fun path d' hd n r sub' hs => by
    obtain ⟨d, h1, _, h3, _, _, h6⟩ := h.old hi hd
    obtain ⟨sub, k1, k2⟩ := h6 _ _ _ hs
    exact k2 ▸ hv.promotes _ _ h1 n r sub k1

section
variable [Zero K] {c c' b b' : Body K F} {q : List Name} (R : Refactored c c' b q b')

/-- one step of a computation -/
def UsesStep (b : Body K F) (a z : List Name × Nat) : Prop := ∃ a', Relation.EqvGen (Same b) a a' ∧ Feeds b a' z

include R

theorem Refactored.methodSame {x y : Nat} (h : Relation.EqvGen (MethodSame c) x y) : Relation.EqvGen (Same b) (q, x) (q, y) := by
  induction h with
  | rel x y h =>
    obtain ⟨h1, h2, h3 | ⟨name, h3, h4⟩⟩ := h
    · exact .rel _ _ (.alias c R.step.bat h1 h2 h3)
    · exact .rel _ _ (R.same_named h1 h3 h2 h4)
  | refl _ => exact .refl _
  | symm _ _ _ ih => exact ih.symm
  | trans _ _ _ _ _ h1 h2 => exact h1.trans _ _ _ h2

theorem Refactored.methodUses {x y : Nat} (h : MethodUses c x y) : Relation.TransGen (UsesStep b) (q, x) (q, y) := by
  have key : ∀ {a z}, (∃ a', Relation.EqvGen (MethodSame c) a a' ∧ MethodFeeds c a' z) → UsesStep b (q, a) (q, z) := by
    rintro a z ⟨a', h1, h2⟩
    refine ⟨(q, a'), R.methodSame h1, ?_⟩
    rcases h2 with ⟨n, s, g1, g2, g3, g4, g5, g6⟩ | ⟨name, shape, val, key, g1, g2⟩
    · exact Or.inl ⟨c, n, s, rfl, R.step.bat, g1, g2, g3, g4, g5, g6⟩
    · exact Or.inr ⟨c, name, shape, val, key, rfl, R.step.bat, g1, g2⟩
  unfold MethodUses at h
  induction h with
  | single h => exact .single (key h)
  | tail _ h ih => exact ih.tail (key h)

/-- a statement of the method at `q` or of another one -/
theorem Refactored.feeds {e f : List Name × Nat} (h : Feeds b e f) : e.1 = f.1 ∧ (f.1 = q → MethodFeeds c e.2 f.2) ∧ (f.1 ≠ q → Feeds b' e f) ∧ ∃ d, BAt b f.1 d ∧ d.Live e.2 ∧ d.Live f.2 := by
  rcases h with ⟨d, n, s, e1, hd, h1, h2, h3, h4, h5, h6⟩ | ⟨d, name, shape, val, key, e1, hd, h1, h2⟩
  · refine ⟨e1, fun hq => ?_, fun hq => ?_, d, hd, .operand h5 h1 h3 h4 h6, h5⟩
    · rw [hq] at hd
      obtain rfl := R.atq hd
      exact Or.inl ⟨n, s, h1, h2, h3, h4, h5, h6⟩
    · obtain ⟨d', k1, k2⟩ := R.other hd hq
      have ss := sameStatements_of_stmts k2
      exact Or.inl ⟨d', n, s, e1, k1, by unfold Body.Has at *; rw [← k2]; exact h1, h2, h3, h4, ss.live h5, h6⟩
  · have hl : d.Live e.2 := by
      obtain ⟨n, z, g1, _⟩ := h2
      exact .assigned g1
    refine ⟨e1, fun hq => ?_, fun hq => ?_, d, hd, hl, .output (mem_outputOf.2 (Or.inr ⟨_, _, h1⟩))⟩
    · rw [hq] at hd
      obtain rfl := R.atq hd
      exact Or.inr ⟨name, shape, val, key, h1, h2⟩
    · obtain ⟨d', k1, k2⟩ := R.other hd hq
      have ss := sameStatements_of_stmts k2
      exact Or.inr ⟨d', name, shape, val, key, e1, k1, by unfold Body.Has at *; rw [← k2]; exact h1, ss.assigned h2⟩

/-- a variable without a counterpart is only the same as variables of the same method -/
theorem Refactored.inside {e' f' : List Name × Nat} (h : Relation.EqvGen (Same b') e' f') :
    ((¬ ∃ e, Counter c c' q e' e) → (¬ ∃ f, Counter c c' q f' f) ∧ f'.1 = q ∧ Relation.EqvGen (MethodSame c') e'.2 f'.2) ∧
    ((¬ ∃ f, Counter c c' q f' f) → (¬ ∃ e, Counter c c' q e' e) ∧ e'.1 = q ∧ Relation.EqvGen (MethodSame c') e'.2 f'.2) := by
  have hq : ∀ {e'}, (¬ ∃ e, Counter c c' q e' e) → e'.1 = q := fun {e'} h => by
    by_contra hne
    exact h ⟨e', Or.inl ⟨hne, rfl⟩⟩
  induction h with
  | rel _ _ h =>
    cases h with
    | name p h1 h2 =>
      obtain ⟨e, h3, _⟩ := R.ofName (e' := (_, _)) h1
      obtain ⟨f, h4, _⟩ := R.ofName (e' := (_, _)) h2
      exact ⟨fun h => absurd ⟨e, h3⟩ h, fun h => absurd ⟨f, h4⟩ h⟩
    | connection path d s t p p2 _ _ _ _ h1 h2 =>
      obtain ⟨e, h3, _⟩ := R.ofName (e' := (_, _)) h1
      obtain ⟨f, h4, _⟩ := R.ofName (e' := (_, _)) h2
      exact ⟨fun h => absurd ⟨e, h3⟩ h, fun h => absurd ⟨f, h4⟩ h⟩
    | @«alias» path x y d hd hx hy ha =>
      constructor
      · intro h
        have h0 := hq h
        dsimp only at h0
        subst h0
        obtain rfl := R.symm.atq hd
        refine ⟨?_, rfl, .rel _ _ ⟨hx, hy, Or.inl ha⟩⟩
        rintro ⟨f, ⟨h1, rfl⟩ | ⟨h1, h2, h3, name, v', h4, h5, h6, h7⟩⟩
        · exact h1 rfl
        · exact h ⟨f, Or.inr ⟨h1, h2, h3, name, v', h4, h5, .trans ha h6, h7⟩⟩
      · intro h
        have h0 := hq h
        dsimp only at h0
        subst h0
        obtain rfl := R.symm.atq hd
        refine ⟨?_, rfl, .rel _ _ ⟨hx, hy, Or.inl ha⟩⟩
        rintro ⟨f, ⟨h1, rfl⟩ | ⟨h1, h2, h3, name, v', h4, h5, h6, h7⟩⟩
        · exact h1 rfl
        · exact h ⟨f, Or.inr ⟨h1, h2, h3, name, v', h4, h5, .trans (.symm ha) h6, h7⟩⟩
  | refl _ => exact ⟨fun h => ⟨h, hq h, .refl _⟩, fun h => ⟨h, hq h, .refl _⟩⟩
  | symm _ _ _ ih => exact ⟨fun h => ⟨(ih.2 h).1, (ih.2 h).2.1, (ih.2 h).2.2.symm⟩, fun h => ⟨(ih.1 h).1, (ih.1 h).2.1, (ih.1 h).2.2.symm⟩⟩
  | trans _ _ _ _ _ ih1 ih2 =>
    constructor
    · intro h
      obtain ⟨h1, h2, h3⟩ := ih1.1 h
      obtain ⟨h4, h5, h6⟩ := ih2.1 h1
      exact ⟨h4, h5, h3.trans _ _ _ h6⟩
    · intro h
      obtain ⟨h1, h2, h3⟩ := ih2.2 h
      obtain ⟨h4, h5, h6⟩ := ih1.2 h1
      exact ⟨h4, h5, h6.trans _ _ _ h3⟩

/-- how far a computation that started at a variable with the counterpart `e0` has come: at a variable with a counterpart, or inside the replaced method -/
def Reached (c c' b : Body K F) (q : List Name) (e0 f' : List Name × Nat) : Prop :=
  (∃ f z, Counter c c' q f' f ∧ Relation.TransGen (UsesStep b) e0 z ∧ Relation.EqvGen (Same b) z f) ∨
  ((¬ ∃ f, Counter c c' q f' f) ∧ f'.1 = q ∧ ∃ g g' name, c.Live g ∧ c.Named g name ∧ c'.Live g' ∧ c'.Named g' name ∧ (Relation.EqvGen (Same b) e0 (q, g) ∨ ∃ z, Relation.TransGen (UsesStep b) e0 z ∧ Relation.EqvGen (Same b) z (q, g)) ∧
    MethodUses c' g' f'.2)

omit [Zero K] R in
theorem uses_pre {a a' z : List Name × Nat} (h1 : Relation.EqvGen (Same b) a a') (h2 : Relation.TransGen (UsesStep b) a' z) : Relation.TransGen (UsesStep b) a z := by
  induction h2 with
  | single h => obtain ⟨x, h3, h4⟩ := h; exact .single ⟨x, h1.trans _ _ _ h3, h4⟩
  | tail _ h ih => exact ih.tail h

theorem Refactored.enter (hn : NoNewDependencies c c') {e0 : List Name × Nat} {g g' y : Nat} {name : Name} (h1 : c.Live g) (h2 : c.Named g name) (h3 : c'.Live g') (h4 : c'.Named g' name)
    (h5 : Relation.EqvGen (Same b) e0 (q, g) ∨ ∃ z, Relation.TransGen (UsesStep b) e0 z ∧ Relation.EqvGen (Same b) z (q, g)) (h6 : MethodUses c' g' y) (hy : c'.Live y) : Reached c c' b q e0 (q, y) := by
  by_cases hc : ∃ f, Counter c c' q (q, y) f
  · obtain ⟨f, hf⟩ := hc
    refine Or.inl ⟨f, ?_⟩
    rcases id hf with ⟨k1, rfl⟩ | ⟨k1, k2, k3, nm, v', k4, k5, k6, k7⟩
    · exact absurd rfl k1
    obtain ⟨x, z, w, j1, j2, j3, j4, j5, j6⟩ := hn.names name nm ⟨g', y, v', h3, h4, h6, .rel _ _ ⟨hy, k4, Or.inl k6⟩, k4, k5⟩
    have e1 := R.methodUses j3
    have e2 := R.methodSame j4
    have e3 : Relation.EqvGen (Same b) (q, w) f := by
      have : f = (q, f.2) := by rw [← k1]
      rw [this]
      exact .rel _ _ (R.same_named j5 j6 k3 k7)
    have e4 : Relation.EqvGen (Same b) (q, g) (q, x) := .rel _ _ (R.same_named h1 h2 j1 j2)
    refine ⟨(q, z), hf, ?_, e2.trans _ _ _ e3⟩
    rcases h5 with h5 | ⟨u, h5, h5'⟩
    · exact uses_pre (h5.trans _ _ _ e4) e1
    · exact h5.trans (uses_pre (h5'.trans _ _ _ e4) e1)
  · exact Or.inr ⟨hc, rfl, g, g', name, h1, h2, h3, h4, h5, h6⟩

theorem Refactored.stepFrom (hf' : MethodFacts c') (hn : NoNewDependencies c c') {e0 f f' h' : List Name × Nat} (hf : Counter c c' q f' f) (h0 : Relation.EqvGen (Same b) e0 f ∨ ∃ z, Relation.TransGen (UsesStep b) e0 z ∧ Relation.EqvGen (Same b) z f)
    (hs : UsesStep b' f' h') : Reached c c' b q e0 h' := by
  obtain ⟨a', h1, h2⟩ := hs
  obtain ⟨a, h3, h4⟩ := (R.chain hf' h1).1 f hf
  have h0' : Relation.EqvGen (Same b) e0 a ∨ ∃ z, Relation.TransGen (UsesStep b) e0 z ∧ Relation.EqvGen (Same b) z a := by
    rcases h0 with h0 | ⟨z, k1, k2⟩
    · exact Or.inl (h0.trans _ _ _ h4)
    · exact Or.inr ⟨z, k1, k2.trans _ _ _ h4⟩
  obtain ⟨e1, m1, m2, d, hd, hl, hl'⟩ := R.symm.feeds h2
  rcases h3 with ⟨k1, rfl⟩ | ⟨k1, k2, k3, nm, v', k4, k5, k6, k7⟩
  · have hne : h'.1 ≠ q := e1 ▸ k1
    have hfe := m2 hne
    refine Or.inl ⟨h', h', Or.inl ⟨hne, rfl⟩, ?_, .refl _⟩
    rcases h0' with h0' | ⟨z, j1, j2⟩
    · exact .single ⟨a', h0', hfe⟩
    · exact j1.tail ⟨a', j2, hfe⟩
  · have hq : h'.1 = q := e1 ▸ k2
    rw [hq] at hd
    obtain rfl := R.symm.atq hd
    have hfe := m1 hq
    have hu : MethodUses d v' h'.2 := .single ⟨a'.2, .symm _ _ (.rel _ _ ⟨hl, k4, Or.inl k6⟩), hfe⟩
    have : h' = (q, h'.2) := by rw [← hq]
    rw [this]
    have ha : a = (q, a.2) := by rw [← k1]
    rw [ha] at h0'
    exact R.enter hn k3 k7 k4 k5 h0' hu hl'

theorem Refactored.goOn (hf' : MethodFacts c') (hn : NoNewDependencies c c') {e0 f' h' : List Name × Nat} (hr : Reached c c' b q e0 f') (hs : UsesStep b' f' h') : Reached c c' b q e0 h' := by
  rcases hr with ⟨f, z, h1, h2, h3⟩ | ⟨h1, h2, g, g', name, k1, k2, k3, k4, k5, k6⟩
  · exact R.stepFrom hf' hn h1 (Or.inr ⟨z, h2, h3⟩) hs
  · obtain ⟨a', h3, h4⟩ := hs
    obtain ⟨_, j2, j3⟩ := (R.inside h3).1 h1
    obtain ⟨e1, m1, m2, d, hd, hl, hl'⟩ := R.symm.feeds h4
    have hq : h'.1 = q := e1 ▸ j2
    rw [hq] at hd
    obtain rfl := R.symm.atq hd
    have : h' = (q, h'.2) := by rw [← hq]
    rw [this]
    exact R.enter hn k1 k2 k3 k4 k5 (.tail k6 ⟨a'.2, j3, m1 hq⟩) hl'

theorem Refactored.acyclic (hf' : MethodFacts c') (hn : NoNewDependencies c c') (ha : ¬ CircularProgram b) : ¬ CircularProgram b' := by
  rintro ⟨e', he⟩
  have hall : ∀ {e0 : List Name × Nat} {f' h' : List Name × Nat}, Reached c c' b q e0 f' → Relation.TransGen (UsesStep b') f' h' → Reached c c' b q e0 h' := by
    intro e0 f' h' h0 h
    induction h with
    | single h => exact R.goOn hf' hn h0 h
    | tail _ h ih => exact R.goOn hf' hn ih h
  have hcyc : ∀ x' : List Name × Nat, Relation.TransGen (UsesStep b') x' x' → ¬ ∃ e, Counter c c' q x' e := by
    rintro x' hx ⟨e, hc⟩
    have hr : Reached c c' b q e x' := by
      obtain ⟨y, h1, h2⟩ := Relation.TransGen.head'_iff.1 hx
      have := R.stepFrom hf' hn hc (Or.inl (.refl _)) h1
      rcases Relation.reflTransGen_iff_eq_or_transGen.1 h2 with rfl | h2
      · exact this
      · exact hall this h2
    rcases hr with ⟨f, z, h1, h2, h3⟩ | ⟨h1, _⟩
    · have hef : Relation.EqvGen (Same b) f e := by
        rcases hc with ⟨k1, rfl⟩ | ⟨k1, k2, k3, nm, v', k4, k5, k6, k7⟩ <;> rcases h1 with ⟨j1, rfl⟩ | ⟨j1, j2, j3, nm', w', j4, j5, j6, j7⟩
        · exact .refl _
        · exact absurd j2 k1
        · exact absurd k2 j1
        · obtain rfl := hf'.unique _ _ _ _ k5 j5 (.trans (.symm k6) j6)
          have e1 : f = (q, f.2) := by rw [← j1]
          have e2 : e = (q, e.2) := by rw [← k1]
          rw [e1, e2]
          exact .rel _ _ (R.same_named j3 j7 k3 k7)
      refine ha ⟨z, ?_⟩
      exact uses_pre (h3.trans _ _ _ hef) h2
    · exact h1 ⟨e, hc⟩
  -- the cycle is inside the method
  have hin : ∀ {f' h' : List Name × Nat}, (¬ ∃ e, Counter c c' q f' e) → Relation.TransGen (UsesStep b') f' h' → (∀ z, Relation.TransGen (UsesStep b') f' z → Relation.ReflTransGen (UsesStep b') z h' → ¬ ∃ e, Counter c c' q z e) →
      MethodUses c' f'.2 h'.2 := by
    intro f' h' h0 h
    induction h with
    | single h =>
      intro _
      obtain ⟨a', h3, h4⟩ := h
      obtain ⟨_, j2, j3⟩ := (R.inside h3).1 h0
      obtain ⟨e1, m1, _⟩ := R.symm.feeds h4
      exact .single ⟨a'.2, j3, m1 (e1 ▸ j2)⟩
    | @tail y z hy h ih =>
      intro hz
      have := ih fun w h1 h2 => hz w h1 (h2.tail h)
      have hny := hz y hy (.single h)
      obtain ⟨a', h3, h4⟩ := h
      obtain ⟨_, j2, j3⟩ := (R.inside h3).1 hny
      obtain ⟨e1, m1, _⟩ := R.symm.feeds h4
      exact .tail this ⟨a'.2, j3, m1 (e1 ▸ j2)⟩
  refine hn.acyclic e'.2 (hin (hcyc e' he) he fun z h1 h2 => hcyc z ?_)
  rcases Relation.reflTransGen_iff_eq_or_transGen.1 h2 with h | h2
  · subst h; exact he
  · exact h2.trans h1

theorem Refactored.connectionOk {s t : Name} (h : ConnectionOk b s t) : ConnectionOk b' s t := by
  obtain ⟨p, r, h1, h2, h3, ⟨path, x, h4⟩, h5, h6⟩ := h
  rw [R.toModel] at h1 h2 h3 h5 h6
  refine ⟨p, r, h1, h2, h3, ?_, fun path d w hd hw => ?_, h6⟩
  · by_cases hq : path = q
    · subst hq
      obtain ⟨y, _, _, _, _, _, h⟩ := R.counterpart h4
      exact ⟨_, y, h⟩
    · exact ⟨path, x, R.hasName hq h4⟩
  · obtain ⟨d', k1, k2⟩ := R.symm.locals hd
    exact h5 path d' w k1 (k2 ▸ hw)

end

/-- the program with the replaced method is valid -/
theorem ValidProgram.replaced [Field K] [DecidableEq K] {c c' b b' : Body K F} {q : List Name} (hv : ValidProgram b) (h : Replaced c c' b q b') (hi : SameInterface c c') (hm : MethodOk c') (hn : NoNewDependencies c c')
    (hs : b'.Assigns → b'.maxObjects ≤ 63 ^ 4) : ValidProgram b' := by
  have hv' := hv.namesValid.replaced h hi hm
  have R : Refactored c c' b q b' := ⟨hv.namesValid, hv', h, hi⟩
  obtain ⟨objs, root, hr⟩ := (runProgram_ok_iff b' (plainNames hv'.names hs)).2 hv'.methods
  have hf := methodFacts hv' hr R.step.symm.bat
  refine ⟨hv'.methods, hv'.names, hv'.oneSource, hv'.sizes, hv'.promotes, fun path d s t hd hst => ?_, ?_, ?_, R.acyclic hf hn hv.acyclic⟩
  · obtain ⟨d', k1, k2⟩ := R.symm.locals hd
    exact R.connectionOk (hv.connections path d' s t k1 (k2 ▸ hst))
  · rw [← R.toModel]
    exact hv.oneConnection
  · rw [← R.toModel]
    exact hv.noChain

end Csdl.Prog
