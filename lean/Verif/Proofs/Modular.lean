import Verif.Proofs.Print2
import Verif.Proofs.Reorder
/-
For C98: a model on its own and as part of a program.
-/
namespace Csdl.Prog
open Csdl Csdl.Arith
variable {K F : Type}

theorem bat_trans {b sub c : Body K F} {q path : List Name} (h : BAt b q sub) (h' : BAt sub path c) : BAt b (q ++ path) c := by
  induction h with
  | here _ => exact h'
  | down h _ ih => exact .down h (ih h')

/-- the conditions on names that hold for all models of a valid program -/
structure NamesValid [Zero K] (b : Body K F) : Prop where
  methods : ∀ path b', BAt b path b' → MethodOk b'
  names : GoodNames b
  oneSource : ∀ path b', BAt b path b' → ∀ p path1 v1 path2 v2, PromotedAs b'.toModel path1 .source v1 p → PromotedAs b'.toModel path2 .source v2 p → path1 = path2
  sizes : ∀ path b', BAt b path b' → ∀ p k1 path1 v1 k2 path2 v2, PromotedAs b'.toModel path1 k1 v1 p → PromotedAs b'.toModel path2 k2 v2 p → path1 ≠ path2 → v1.shape.size = v2.shape.size
  promotes : ∀ path b', BAt b path b' → ∀ n q sub, (n, some q, sub) ∈ b'.subs → ∀ x ∈ q, '.' ∉ x ∧ ∃ path' k v, PromotedAs sub.toModel path' k v x

theorem ValidProgram.namesValid [Zero K] {b : Body K F} (h : ValidProgram b) : NamesValid b := ⟨h.methods, h.names, h.oneSource, h.sizes, h.promotes⟩

theorem NamesValid.sub [Zero K] {b sub : Body K F} (h : NamesValid b) {q : List Name} (hq : BAt b q sub) : NamesValid sub where
  methods := fun path b' hb => h.methods _ b' (bat_trans hq hb)
  names := ⟨fun path b' hb => h.names.sources _ b' (bat_trans hq hb), fun path b' hb => h.names.declared _ b' (bat_trans hq hb), fun path b' hb => h.names.notAuto _ b' (bat_trans hq hb),
    fun path b' hb => h.names.subs _ b' (bat_trans hq hb)⟩
  oneSource := fun path b' hb => h.oneSource _ b' (bat_trans hq hb)
  sizes := fun path b' hb => h.sizes _ b' (bat_trans hq hb)
  promotes := fun path b' hb => h.promotes _ b' (bat_trans hq hb)

theorem NamesValid.unique [Zero K] {b : Body K F} (h : NamesValid b) {x p q : Name} (h1 : Denotes b.toModel x p) (h2 : Denotes b.toModel x q) : p = q := by
  obtain ⟨r, hr⟩ := resolves_body h.methods h.names h.oneSource h.sizes h.promotes
  exact denotes_unique (dotFree_body h.methods h.names) hr h1 h2

/-- `L` maps the promoted names of the model at `q` to those they have in the main model -/
structure Lifts (b : Body K F) (q : List Name) (sub : Body K F) (L : Name → Name) : Prop where
  promoted : ∀ {path k w p}, PromotedAs sub.toModel path k w p → PromotedAs b.toModel (q ++ path) k w (L p)
  promoted' : ∀ {path k w p'}, PromotedAs b.toModel (q ++ path) k w p' → ∃ p, PromotedAs sub.toModel path k w p ∧ p' = L p
  denotes : ∀ {x p'}, Denotes b.toModel (fullName q x) p' → ∃ p, Denotes sub.toModel x p ∧ p' = L p

theorem lifts_step [Zero K] {b sub : Body K F} (h : NamesValid b) {n : Name} {pr : Option (List Name)} (hs : (n, pr, sub) ∈ b.subs) : ∃ L, Lifts b [n] sub L := by
  classical
  have hd := dotFree_body h.methods h.names
  have hnd := (h.methods [] b (.here _)).subNames
  have good : ∀ {m p s}, (m, p, s) ∈ b.subs → GoodName m := fun {m p s} hm => (hd [] _ _ (.here _)).2.1 ⟨m, p, Body.toModel s⟩ (mem_toSubs.2 ⟨s, hm, rfl⟩)
  have uniq : ∀ {p s}, (n, p, s) ∈ b.subs → p = pr ∧ s = sub := fun {p s} hm => by
    have := List.inj_on_of_nodup_map hnd hm hs rfl
    exact Prod.mk.inj (Prod.mk.inj this).2
  have hdot : ∀ {m p s x}, (m, p, s) ∈ b.subs → IsPromoted p x → '.' ∉ x := by
    intro m p s x hm hx
    cases p with
    | none => exact hx
    | some l => exact (h.promotes [] b (.here _) m l s hm x hx).1
  let L : Name → Name := fun p => if IsPromoted pr p then p else prependNamespace n p
  have inv : ∀ {path k w p'}, PromotedAs b.toModel (n :: path) k w p' → ∃ p, PromotedAs sub.toModel path k w p ∧ p' = L p := by
    intro path k w p' hp
    unfold Body.toModel at hp
    generalize he : n :: path = np at hp
    cases hp with
    | here => cases he
    | @up _ _ path2 _ _ p s hs2 hp hpr =>
      obtain ⟨s', h1, h2⟩ := mem_toSubs.1 hs2
      obtain ⟨e1, rfl⟩ := List.cons.inj he
      rw [← e1] at h1
      obtain ⟨e2, rfl⟩ := uniq h1
      rw [h2] at hp
      rw [e2] at hpr
      exact ⟨p', hp, (if_pos hpr).symm⟩
    | @stay _ _ path2 _ _ p s hs2 hp hpr =>
      obtain ⟨s', h1, h2⟩ := mem_toSubs.1 hs2
      obtain ⟨e1, rfl⟩ := List.cons.inj he
      rw [← e1] at h1
      obtain ⟨e2, rfl⟩ := uniq h1
      rw [h2] at hp
      rw [e2] at hpr
      refine ⟨p, hp, ?_⟩
      rw [← e1]
      exact (if_neg hpr).symm
  refine ⟨L, ⟨?_, inv, ?_⟩⟩
  · intro path k w p hp
    by_cases hpr : IsPromoted pr p
    · rw [show L p = p from if_pos hpr]
      exact .up (s := ⟨n, pr, sub.toModel⟩) (mem_toSubs.2 ⟨sub, hs, rfl⟩) hp hpr
    · rw [show L p = prependNamespace n p from if_neg hpr]
      exact .stay (s := ⟨n, pr, sub.toModel⟩) (mem_toSubs.2 ⟨sub, hs, rfl⟩) hp hpr
  · intro x p' hx
    have hx : Denotes b.toModel (prependNamespace n x) p' := hx
    generalize he : prependNamespace n x = y at hx
    cases hx with
    | @promoted path k v _ hp =>
      unfold Body.toModel at hp
      cases hp with
      | here hv => exact absurd (he ▸ dot_mem_prepend (good hs).1) ((hd [] _ _ (.here _)).1 k _ hv)
      | @up _ _ path2 _ _ p s hs2 hp hpr =>
        obtain ⟨s', h1, h2⟩ := mem_toSubs.1 hs2
        exact absurd (he ▸ dot_mem_prepend (good hs).1) (hdot h1 hpr)
      | @stay _ _ path2 _ _ p s hs2 hp hpr =>
        obtain ⟨s', h1, h2⟩ := mem_toSubs.1 hs2
        obtain ⟨e1, rfl⟩ := prepend_inj (good hs) (good h1) he
        rw [← e1] at h1
        obtain ⟨e2, rfl⟩ := uniq h1
        rw [h2] at hp
        rw [e2] at hpr
        refine ⟨x, .promoted hp, ?_⟩
        rw [← e1]
        exact (if_neg hpr).symm
    | @full path k v p hp =>
      obtain ⟨g1, g2⟩ := promoted_good _ hd hp
      cases path with
      | nil => exact absurd (show '.' ∈ fullName [] v.name from he ▸ dot_mem_prepend (good hs).1) g2
      | cons m path =>
        obtain ⟨rfl, rfl⟩ := prepend_inj (good hs) (g1 m (by simp)) he
        obtain ⟨p, h1, h2⟩ := inv hp
        exact ⟨p, .full h1, h2⟩

theorem exists_lifts [Zero K] {b sub : Body K F} (h : NamesValid b) {q : List Name} (hq : BAt b q sub) : ∃ L, Lifts b q sub L := by
  induction hq with
  | here b => exact ⟨id, ⟨fun h => h, fun h => ⟨_, h, rfl⟩, fun h => ⟨_, h, rfl⟩⟩⟩
  | @down b n p sub path b' hs hb ih =>
    obtain ⟨L1, s⟩ := lifts_step h hs
    obtain ⟨L2, t⟩ := ih (h.sub (.down hs (.here _)))
    refine ⟨L1 ∘ L2, ⟨fun hp => s.promoted (t.promoted hp), fun hp => ?_, fun hx => ?_⟩⟩
    · obtain ⟨p1, h1, rfl⟩ := s.promoted' hp
      obtain ⟨p2, h2, rfl⟩ := t.promoted' h1
      exact ⟨p2, h2, rfl⟩
    · obtain ⟨p1, h1, rfl⟩ := s.denotes hx
      obtain ⟨p2, h2, rfl⟩ := t.denotes h1
      exact ⟨p2, h2, rfl⟩

theorem Lifts.hasName {b sub : Body K F} {q : List Name} {L : Name → Name} (l : Lifts b q sub L) (hq : BAt b q sub) {path : List Name} {x : Nat} {p : Name} (h : HasName sub path x p) : HasName b (q ++ path) x (L p) := by
  obtain ⟨c, name, k, w, h1, h2, h3, h4, h5⟩ := h
  exact ⟨c, name, k, w, bat_trans hq h1, h2, h3, l.promoted h4, h5⟩

/-- the ends of a connection, in the model and in the main model -/
theorem Lifts.ends [Zero K] {b sub : Body K F} {q : List Name} {L : Name → Name} (l : Lifts b q sub L) (h : NamesValid sub) {path : List Name} {x p p' : Name} (h1 : Denotes b.toModel (fullName (q ++ path) x) p')
    (h2 : Denotes sub.toModel (fullName path x) p) : p' = L p := by
  have : fullName (q ++ path) x = fullName q (fullName path x) := by simp [fullName]
  rw [this] at h1
  obtain ⟨p0, h3, rfl⟩ := l.denotes h1
  rw [h.unique h3 h2]

/-- the values of the variables of a model in a solution of the program solve the program of the model -/
theorem Solution.sub [Field K] {b sub : Body K F} (hv : ValidProgram b) {q : List Name} (hq : BAt b q sub) {P : Power K} {den : F → List (Val K) → Nat → Val K} {ρ : List Name → Nat → Val K} (h : Solution P den b ρ) :
    Solution P den sub fun path => ρ (q ++ path) := by
  obtain ⟨L, l⟩ := exists_lifts hv.namesValid hq
  have hn := hv.namesValid.sub hq
  refine ⟨fun path c hc => h.expr _ c (bat_trans hq hc), fun path c hc => h.call _ c (bat_trans hq hc), fun path c hc => h.index _ c (bat_trans hq hc), fun path c hc => h.output _ c (bat_trans hq hc), ?_, ?_⟩
  · intro path x path' y p h1 h2
    exact h.shared _ _ _ _ _ (l.hasName hq h1) (l.hasName hq h2)
  · intro path c hc s t p p2 hst hp hp2 path1 x path2 y h1 h2
    obtain ⟨P', Q', d1, d2, _⟩ := hv.connections _ c s t (bat_trans hq hc) hst
    have e1 := l.ends hn d1 hp
    have e2 := l.ends hn d2 hp2
    subst e1
    subst e2
    exact h.connected _ c (bat_trans hq hc) s t _ _ hst d1 d2 _ _ _ _ (l.hasName hq h1) (l.hasName hq h2)

end Csdl.Prog
