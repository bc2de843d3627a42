import Verif.Proofs.ProgramFull3
import Verif.Spec.Inline
import Verif.Proofs.Library2
/-
Programs whose texts differ only in how submodels are given.
-/
namespace Csdl.Prog
open Csdl Csdl.Arith
variable {K F G I : Type}

/-- the same text up to `with` blocks -/
inductive SameText : Body K F → Body K F → Prop
  | done : SameText .done .done
  | stmt (s : Stmt K F) {b c : Body K F} : SameText b c → SameText (.stmt s b) (.stmt s c)
  | add (i j : Bool) (name : Name) (promotes : Option (List Name)) {sub sub' b c : Body K F} : SameText sub sub' → SameText b c → SameText (.add i name promotes sub b) (.add j name promotes sub' c)

namespace SameText
variable {b c : Body K F}

theorem symm (h : SameText b c) : SameText c b := by
  induction h with
  | done => exact .done
  | stmt s _ ih => exact .stmt s ih
  | add i j n p _ _ ih1 ih2 => exact .add j i n p ih1 ih2

theorem stmts (h : SameText b c) : ∀ n, b.stmts n = c.stmts n := by
  induction h with
  | done => exact fun _ => rfl
  | stmt s _ ih => exact fun n => by rw [Body.stmts, Body.stmts, ih]
  | add i j n p _ _ _ ih => exact fun n => by rw [Body.stmts, Body.stmts, ih]

theorem has (h : SameText b c) {n : Nat} {s : Stmt K F} : b.Has n s ↔ c.Has n s := by
  unfold Body.Has; rw [h.stmts]

theorem shapes (h : SameText b c) : b.shapes = c.shapes := by
  unfold Body.shapes; rw [h.stmts]

theorem locals (h : SameText b c) : b.locals = c.locals := by
  unfold Body.locals; rw [h.shapes, h.stmts]

theorem maxObjects (h : SameText b c) : b.maxObjects = c.maxObjects := by
  induction h with
  | done => rfl
  | stmt s _ ih => rw [Body.maxObjects, Body.maxObjects, ih]
  | add i j n p _ _ ih1 ih2 => rw [Body.maxObjects, Body.maxObjects, ih1, ih2]

theorem toSubs (h : SameText b c) : b.toSubs = c.toSubs := by
  induction h with
  | done => rfl
  | stmt s _ ih => exact ih
  | add i j n p h1 _ ih1 ih2 => rw [Body.toSubs, Body.toSubs, ih1, ih2, h1.locals]

theorem toModel (h : SameText b c) : b.toModel = c.toModel := by
  unfold Body.toModel; rw [h.locals, h.toSubs]

theorem subs (h : SameText b c) : List.Forall₂ (fun s t => s.1 = t.1 ∧ s.2.1 = t.2.1 ∧ SameText s.2.2 t.2.2) b.subs c.subs := by
  induction h with
  | done => exact .nil
  | stmt s _ ih => exact ih
  | add i j n p h1 _ _ ih => exact .cons ⟨rfl, rfl, h1⟩ ih

theorem subNames (h : SameText b c) : b.subs.map (·.1) = c.subs.map (·.1) := map_of_forall₂ h.subs fun _ _ _ _ h => h.1

theorem at_ {path : List Name} {b' : Body K F} (h : SameText b c) (hb : BAt b path b') : ∃ c', BAt c path c' ∧ SameText b' c' := by
  induction hb generalizing c with
  | here => exact ⟨c, .here _, h⟩
  | down hm _ ih =>
    obtain ⟨⟨n, p, t⟩, ht, h1, h2, h3⟩ := forall₂_mem_left h.subs hm
    obtain ⟨c', h4, h5⟩ := ih h3
    simp only at h1 h2
    subst h1 h2
    exact ⟨c', .down ht h4, h5⟩

theorem named (h : SameText b c) {x : Nat} {name : Name} : b.Named x name ↔ c.Named x name := by
  unfold Body.Named; rw [h.stmts]

theorem assigned (h : SameText b c) {y : Nat} {key : Key} {x : Nat} : b.Assigned y key x ↔ c.Assigned y key x := by
  unfold Body.Assigned; simp only [h.has, h.stmts]

theorem live (h : SameText b c) {x : Nat} (hx : b.Live x) : c.Live x := by
  induction hx with
  | input h1 => exact .input (by rw [← h.stmts]; exact h1)
  | output h1 => exact .output (by rw [← h.stmts]; exact h1)
  | operand _ h2 h3 h4 h5 ih => exact .operand ih (h.has.1 h2) h3 h4 h5
  | result _ h2 h3 h4 h5 h6 ih => exact .result ih (h.has.1 h2) h3 h4 h5 h6
  | part _ h2 h3 h4 ih => exact .part ih (h.has.1 h2) (h.has.1 h3) (by rw [← h.stmts]; exact h4)
  | assigned h1 => exact .assigned (h.has.1 h1)
  | same _ h2 h3 ih => exact .same ih (h.named.1 h2) (h.named.1 h3)

theorem live_iff (h : SameText b c) {x : Nat} : b.Live x ↔ c.Live x := ⟨h.live, h.symm.live⟩

theorem hasName (h : SameText b c) {path : List Name} {x : Nat} {p : Name} (hp : HasName b path x p) : HasName c path x p := by
  obtain ⟨b', name, k, w, h1, h2, h3, h4, h5⟩ := hp
  obtain ⟨c', g1, g2⟩ := h.at_ h1
  exact ⟨c', name, k, w, g1, g2.live h2, g2.named.1 h3, by rw [← h.toModel]; exact h4, h5⟩

theorem same (h : SameText b c) {a a' : List Name × Nat} (hs : Same b a a') : Same c a a' := by
  cases hs with
  | name p h1 h2 => exact .name p (h.hasName h1) (h.hasName h2)
  | connection path b' s t p q h1 h2 h3 h4 h5 h6 =>
    obtain ⟨c', g1, g2⟩ := h.at_ h1
    exact .connection path c' s t p q g1 (by rw [← g2.locals]; exact h2) (by rw [← h.toModel]; exact h3) (by rw [← h.toModel]; exact h4) (h.hasName h5) (h.hasName h6)
  | «alias» b' h1 h2 h3 h4 =>
    obtain ⟨c', g1, g2⟩ := h.at_ h1
    exact .alias c' g1 (g2.live h2) (g2.live h3) (by rw [← g2.stmts]; exact h4)

theorem eqv (h : SameText b c) {a a' : List Name × Nat} (hs : Relation.EqvGen (Same b) a a') : Relation.EqvGen (Same c) a a' := hs.mono fun _ _ => h.same

theorem given (h : SameText b c) {path : List Name} {x : Nat} (hg : GivenVar b path x) : GivenVar c path x := by
  obtain ⟨⟨b', h1, h2⟩, h3⟩ := hg
  obtain ⟨c', g1, g2⟩ := h.at_ h1
  refine ⟨⟨c', g1, g2.live h2⟩, fun path' c1 n s y k1 k2 k3 k4 k5 k6 k7 => ?_⟩
  obtain ⟨b1, l1, l2⟩ := h.symm.at_ k1
  exact h3 path' b1 n s y l1 (l2.has.1 k2) k3 k4 k5 (l2.live k6) (h.symm.eqv k7)

theorem given_iff (h : SameText b c) {path : List Name} {x : Nat} : GivenVar b path x ↔ GivenVar c path x := ⟨h.given, h.symm.given⟩

theorem solution [Field K] (h : SameText b c) {P : Power K} {den : F → List (Val K) → Nat → Val K} {ρ : List Name → Nat → Val K} (hs : Solution P den b ρ) : Solution P den c ρ := by
  constructor
  · intro path c' hc n i h1 h2
    obtain ⟨b', g1, g2⟩ := h.symm.at_ hc
    exact hs.expr path b' g1 n i (g2.has.1 h1) (g2.live h2)
  · intro path c' hc n f args outs h1 j hj h2
    obtain ⟨b', g1, g2⟩ := h.symm.at_ hc
    exact hs.call path b' g1 n f args outs (g2.has.1 h1) j hj (g2.live h2)
  · intro path c' hc n x key h1 h2
    obtain ⟨b', g1, g2⟩ := h.symm.at_ hc
    rw [g2.shapes]
    exact hs.index path b' g1 n x key (g2.has.1 h1) (g2.live h2)
  · intro path c' hc y name shape val h1
    obtain ⟨b', g1, g2⟩ := h.symm.at_ hc
    have := hs.output path b' g1 y name shape val (g2.has.1 h1)
    simp only [g2.assigned]
    exact this
  · intro path x path' y p h1 h2
    exact hs.shared path x path' y p (h.symm.hasName h1) (h.symm.hasName h2)
  · intro path c' hc s t p q h1 h2 h3 path1 x path2 y h4 h5
    obtain ⟨b', g1, g2⟩ := h.symm.at_ hc
    rw [g2.locals] at h1
    rw [← h.toModel] at h2 h3
    exact hs.connected path b' g1 s t p q h1 h2 h3 path1 x path2 y (h.symm.hasName h4) (h.symm.hasName h5)

theorem methodOk [Zero K] (h : SameText b c) (hm : MethodOk b) : MethodOk c := by
  obtain ⟨h1, h2, h3, h4, h5⟩ := hm
  refine ⟨?_, ?_, ?_, ?_, ?_⟩
  · rw [← h.stmts]; exact h1
  · intro y name shape val hy
    obtain ⟨key, x, hx⟩ := h2 y name shape val (h.has.2 hy)
    exact ⟨key, x, h.assigned.1 hx⟩
  · rw [← h.subNames]; exact h3
  · intro t ht
    obtain ⟨s, hs, e, _⟩ := forall₂_mem_right h.subs ht
    rw [← e]; exact h4 s hs
  · rw [← h.locals]
    refine h5.imp id (Or.imp id ?_)
    intro hne he
    apply hne
    have := h.subs.length_eq
    rw [he] at this
    exact List.length_eq_zero_iff.1 this

theorem goodNames (h : SameText b c) (hg : GoodNames b) : GoodNames c := by
  constructor <;> intro path c' hc <;> obtain ⟨b', g1, g2⟩ := h.symm.at_ hc <;> rw [g2.locals]
  · exact hg.sources path b' g1
  · exact hg.declared path b' g1
  · exact hg.notAuto path b' g1
  · intro s hs
    obtain ⟨t, ht, e, _⟩ := forall₂_mem_left g2.subs hs
    rw [e]
    exact hg.subs path b' g1 t ht

theorem feeds (h : SameText b c) {q r : List Name × Nat} (hf : Feeds b q r) : Feeds c q r := by
  rcases hf with ⟨b', n, s, h1, h2, h3, h4, h5, h6, h7, h8⟩ | ⟨b', name, shape, val, key, h1, h2, h3, h4⟩
  · obtain ⟨c', g1, g2⟩ := h.at_ h2
    exact Or.inl ⟨c', n, s, h1, g1, g2.has.1 h3, h4, h5, h6, g2.live h7, h8⟩
  · obtain ⟨c', g1, g2⟩ := h.at_ h2
    exact Or.inr ⟨c', name, shape, val, key, h1, g1, g2.has.1 h3, g2.assigned.1 h4⟩

theorem connectionOk (h : SameText b c) {src tgt : Name} (hc : ConnectionOk b src tgt) : ConnectionOk c src tgt := by
  obtain ⟨p, q, h1, h2, h3, ⟨path, x, h4⟩, h5, h6⟩ := hc
  rw [h.toModel] at h1 h2 h3 h5 h6
  refine ⟨p, q, h1, h2, h3, ⟨path, x, h.hasName h4⟩, ?_, h6⟩
  intro path c' w hc hw
  obtain ⟨b', g1, g2⟩ := h.symm.at_ hc
  rw [g2.locals] at hw
  exact h5 path b' w g1 hw

theorem valid [Zero K] (h : SameText b c) (hv : ValidProgram b) : ValidProgram c := by
  constructor
  · intro path c' hc
    obtain ⟨b', g1, g2⟩ := h.symm.at_ hc
    exact g2.symm.methodOk (hv.methods path b' g1)
  · exact h.goodNames hv.names
  · intro path c' hc
    obtain ⟨b', g1, g2⟩ := h.symm.at_ hc
    rw [g2.toModel]
    exact hv.oneSource path b' g1
  · intro path c' hc
    obtain ⟨b', g1, g2⟩ := h.symm.at_ hc
    rw [g2.toModel]
    exact hv.sizes path b' g1
  · intro path c' hc n q sub hs
    obtain ⟨b', g1, g2⟩ := h.symm.at_ hc
    obtain ⟨⟨n', q', sub'⟩, ht, e1, e2, e3⟩ := forall₂_mem_left g2.subs hs
    simp only at e1 e2 e3
    subst e1 e2
    rw [e3.toModel]
    exact hv.promotes path b' g1 _ _ sub' ht
  · intro path c' a d hc hm
    obtain ⟨b', g1, g2⟩ := h.symm.at_ hc
    rw [g2.locals] at hm
    exact h.connectionOk (hv.connections path b' a d g1 hm)
  · rw [← h.toModel]; exact hv.oneConnection
  · rw [← h.toModel]; exact hv.noChain
  · rintro ⟨q, hq⟩
    exact hv.acyclic ⟨q, Relation.TransGen.mono (fun a d ⟨a', h1, h2⟩ => ⟨a', h.symm.eqv h1, h.symm.feeds h2⟩) q q hq⟩

end SameText

theorem SameText.prefix {b c : Body K F} (h : SameText b c) : ∀ l : List (Stmt K F), SameText (b.prefix l) (c.prefix l)
  | [] => h
  | s :: l => .stmt s (SameText.prefix h l)

section
variable [Field K]

namespace XSameText
variable {b c : XBody K F G I}

theorem symm (h : XSameText b c) : XSameText c b := by
  induction h with
  | done => exact .done
  | stmt s _ ih => exact .stmt s ih
  | add i j n p _ _ ih1 ih2 => exact .add j i n p ih1 ih2

theorem stmts (h : XSameText b c) : ∀ n, b.stmts n = c.stmts n := by
  induction h with
  | done => exact fun _ => rfl
  | stmt s _ ih => exact fun n => by rw [XBody.stmts, XBody.stmts, ih]
  | add i j n p _ _ _ ih => exact fun n => by rw [XBody.stmts, XBody.stmts, ih]

theorem low (h : XSameText b c) : ∀ n, SameText (b.low n) (c.low n) := by
  induction h with
  | done => exact fun _ => .done
  | stmt s _ ih => exact fun n => (ih _).prefix _
  | add i j n p _ _ ih1 ih2 => exact fun m => .add i j n p (ih1 0) (ih2 m)

theorem subs (h : XSameText b c) : List.Forall₂ (fun s t => s.1 = t.1 ∧ s.2.1 = t.2.1 ∧ XSameText s.2.2 t.2.2) b.subs c.subs := by
  induction h with
  | done => exact .nil
  | stmt s _ ih => exact ih
  | add i j n p h1 _ _ ih => exact .cons ⟨rfl, rfl, h1⟩ ih

theorem at_ {path : List Name} {b' : XBody K F G I} (h : XSameText b c) (hb : XAt b path b') : ∃ c', XAt c path c' ∧ XSameText b' c' := by
  induction hb generalizing c with
  | here => exact ⟨c, .here _, h⟩
  | down hm _ ih =>
    obtain ⟨⟨n, p, t⟩, ht, h1, h2, h3⟩ := forall₂_mem_left h.subs hm
    obtain ⟨c', h4, h5⟩ := ih h3
    simp only at h1 h2
    subst h1 h2
    exact ⟨c', .down ht h4, h5⟩

theorem locals (h : XSameText b c) : b.locals = c.locals := by
  unfold XBody.locals; rw [(h.low 0).locals, h.stmts]

theorem toSubs (h : XSameText b c) : b.toSubs = c.toSubs := by
  induction h with
  | done => rfl
  | stmt s _ ih => exact ih
  | add i j n p h1 _ ih1 ih2 => rw [XBody.toSubs, XBody.toSubs, ih1, ih2, h1.locals]

theorem toModel (h : XSameText b c) : b.toModel = c.toModel := by
  unfold XBody.toModel; rw [h.locals, h.toSubs]

theorem plainAfter (h : XSameText b c) {n : Nat} (hp : XPlainAfter n b) : XPlainAfter n c := by
  refine ⟨by rw [← (h.low 0).maxObjects]; exact hp.size, fun path c' m s hc hs => ?_⟩
  obtain ⟨b', g1, g2⟩ := h.symm.at_ hc
  rw [g2.stmts] at hs
  exact hp.names path b' m s g1 hs

theorem methodOk [DecidableEq K] (h : XSameText b c) (hm : XMethodOk b) : XMethodOk c :=
  ⟨(h.low 0).methodOk hm.low, by rw [← h.stmts]; exact hm.stmts⟩

theorem valid [DecidableEq K] (h : XSameText b c) (hv : XValid b) : XValid c := by
  constructor
  · intro path c' hc
    obtain ⟨b', g1, g2⟩ := h.symm.at_ hc
    rw [g2.stmts]
    exact hv.methods path b' g1
  · exact (h.low 0).valid hv.low
  · rw [← h.toModel]; exact hv.designVars
  · rw [← h.toModel]; exact hv.constraints
  · rw [← h.toModel]; exact hv.objective

end XSameText

theorem XSameText.prefix {b c : XBody K F G I} (h : XSameText b c) : ∀ l : List (XStmt K F G I), XSameText (b.prefix l) (c.prefix l)
  | [] => h
  | s :: l => .stmt s (XSameText.prefix h l)

/-- typing commutes with the choice of `with` blocks -/
theorem LSameText.typed {b c : LBody K G I} (h : LSameText b c) : ∀ (vs : List (Shape × Bool)) (b' : XBody K (LOp K) G I), b.typed vs = .ok b' → ∃ c', c.typed vs = .ok c' ∧ XSameText b' c' := by
  induction h with
  | done => intro vs b' hb; rw [LBody.typed] at hb; cases hb; exact ⟨.done, by rw [LBody.typed], .done⟩
  | @stmt s b c _ ih =>
    intro vs b' hb
    rw [LBody.typed] at hb
    cases hs : s.steps (vs.map (·.2)) (vs.map (·.1)) with
    | error e => rw [hs] at hb; cases hb
    | ok l =>
      rw [hs] at hb
      dsimp only at hb
      cases hr : b.typed (varsAfter vs l) with
      | error e => rw [hr] at hb; cases hb
      | ok r =>
        rw [hr] at hb
        cases hb
        obtain ⟨r', h1, h2⟩ := ih _ _ hr
        refine ⟨r'.prefix l, ?_, h2.prefix l⟩
        rw [LBody.typed, hs]
        dsimp only
        rw [h1]
        rfl
  | @add i j name p sub sub' b c _ _ ih1 ih2 =>
    intro vs b' hb
    rw [LBody.typed] at hb
    cases hs : sub.typed [] with
    | error e => rw [hs] at hb; cases hb
    | ok s1 =>
      rw [hs] at hb
      cases hr : b.typed vs with
      | error e => rw [hr] at hb; cases hb
      | ok r =>
        rw [hr] at hb
        cases hb
        obtain ⟨s2, g1, g2⟩ := ih1 _ _ hs
        obtain ⟨r', h1, h2⟩ := ih2 _ _ hr
        refine ⟨.add j name p s2 r', ?_, .add i j name p g2 h2⟩
        rw [LBody.typed, g1, h1]
        rfl

theorem LSameText.symm {b c : LBody K G I} (h : LSameText b c) : LSameText c b := by
  induction h with
  | done => exact .done
  | stmt s _ ih => exact .stmt s ih
  | add i j n p _ _ ih1 ih2 => exact .add j i n p ih1 ih2

end

end Csdl.Prog
