import Verif.Proofs.Program4
import Verif.Proofs.Compile2
import Mathlib.Order.Nat
import Mathlib.Data.Nat.Find
/-
Variables that are one and the same object: unary plus, and equal parts of equal variables.
-/
namespace Csdl.Prog
open Csdl Csdl.Arith
variable {K F : Type} [Field K] [DecidableEq K]
variable {objs0 : Foreign K F} {L : List (Nat × Stmt K F)} {S : List (Name × Option (List Name))} {st : St K F}

/-- `+x` -/
def Stmt.IsPlus (t : Stmt K F) : Prop := ∃ x, t = .expr (.pos x)

theorem lowered_facts {sh : Nat → Shape} {t : Stmt K F} {k : Kind K F} {as : List Nat} {n base : Nat} (h : Lowered sh t k as n base) :
    t.count = n ∧ t.operands = as ∧ ¬ t.IsPlus ∧ t.Computes := by
  cases h with
  | expr hl =>
    refine ⟨rfl, (lower_args hl).symm, ?_, ?_⟩
    · rintro ⟨x, hx⟩
      cases hx
      cases hl
    · rename_i i _
      cases i with
      | pos x => cases hl
      | _ => trivial
  | call f as outs =>
    refine ⟨rfl, rfl, ?_, trivial⟩
    rintro ⟨x, hx⟩
    cases hx
  | index h1 h2 =>
    refine ⟨rfl, rfl, ?_, trivial⟩
    rintro ⟨x, hx⟩
    cases hx

/-- the operation of a statement other than indexing has no other results -/
theorem lowered_base {sh : Nat → Shape} {t : Stmt K F} {k : Kind K F} {as : List Nat} {n base : Nat} (h : Lowered sh t k as n base) (hk : ¬ k.IsPart) : base = 0 := by
  cases h with
  | index => exact absurd ⟨_, _, rfl⟩ hk
  | _ => rfl

/-- only indexing has `decompose` operations -/
theorem lowered_part {sh : Nat → Shape} {t : Stmt K F} {k : Kind K F} {as : List Nat} {n base : Nat} (h : Lowered sh t k as n base) (hk : k.IsPart) : ∃ x key e es, t = .index x key ∧ as = [x] ∧ n = 1 ∧
    k = .part (sh x) es ∧ keyPart (sh x) key = .ok e ∧ es[base]? = some e := by
  obtain ⟨s, es, rfl⟩ := hk
  cases h with
  | index h1 h2 => exact ⟨_, _, _, _, rfl, rfl, rfl, rfl, h1, h2⟩

omit [Field K] [DecidableEq K] in
theorem keyPart_key {sh : Shape} {key : Key} {e : NKey × List Nat} (h : keyPart sh key = .ok e) : normalizeKey sh key = .ok e.1 ∧ srcIndices sh e.1 = .ok e.2 := by
  unfold keyPart at h
  cases h1 : normalizeKey sh key with
  | error e => rw [h1] at h; cases h
  | ok k =>
    rw [h1] at h
    simp only at h
    cases h2 : srcIndices sh k with
    | error e => rw [h2] at h; cases h
    | ok src =>
      rw [h2] at h
      cases h
      exact ⟨rfl, h2⟩

/-- the shape of a variable, by the text of the program and by its object -/
theorem Inv.shapeAt (h : Inv objs0 L S st) {x : Nat} (hx : x < st.env.length) : (shapesOf L).getD x [] = Prog.shapeAt st.objs st.env x := by
  rw [← h.shapes, List.getD_eq_getElem?_getD, List.getElem?_map, List.getElem?_eq_getElem hx]
  unfold Prog.shapeAt
  rw [List.getD_eq_getElem?_getD, List.getElem?_eq_getElem hx]
  rfl

/-- the operation of an indexing statement: its argument is the variable itself -/
theorem Inv.indexOp (h : Inv objs0 L S st) {n x o : Nat} {key : Key} (hn : (n, .index x key) ∈ L) (ho : OpOf st.objs st.env n (.index x key) o) :
    objs0.Own o ∧ x < n ∧ ∃ (p : PObj K F) (es : List (NKey × List Nat)) (base : Nat) (e : NKey × List Nat) (w d : Nat), st.objs[o]? = some p ∧ p.obj.kind = .op ∧ p.op = some (.part (Prog.shapeAt st.objs st.env x) es) ∧ p.obj.deps = [d] ∧ st.env[x]? = some d ∧
      st.decomp.get? d = some o ∧ keyPart (Prog.shapeAt st.objs st.env x) key = .ok e ∧ es[base]? = some e ∧ p.obj.outs[base]? = some w ∧ st.env[n]? = some w ∧ IsResult st.objs w o := by
  obtain ⟨p, k, as, m, base, h1, h2, h3, h4, h5, h6, h7, h8⟩ := ho
  cases h3 with
  | @index _ _ es e _ hk he =>
    obtain ⟨w, w1, w2, w3⟩ := h6 0 (by omega)
    have hw := h.env w (List.mem_of_getElem? w2)
    have hb : objs0.Own o := by
      obtain ⟨q, q1, q2, q3, q4, q5⟩ := w3
      cases h.good w q q1 hw.1 with
      | input a1 a2 => rw [q3] at a2; cases a2
      | declared a1 a2 => rw [q3] at a2; cases a2
      | concat _ _ a1 => rw [q4] at a1; cases a1
      | result o' q' a1 a2 a3 a4 a5 =>
        rw [q4] at a4
        obtain rfl : o = o' := by simpa using a4
        exact a5
      | op a1 => rw [q2] at a1; cases a1
      | model a1 => rw [q2] at a1; cases a1
    obtain ⟨d, d1, d2⟩ := h.parts o p _ _ h1 hb h4
    have hxn := h7 x (by simp)
    have hlt : x < st.env.length := by
      have := h.nums n _ hn
      omega
    have hxd : st.env[x]? = some d := by
      rw [d1] at h8
      cases h8 with
      | cons a1 _ =>
        rw [getD_mem hlt]
        rcases a1 with a1 | ⟨o', a1, a2⟩
        · rw [a1]
        · exact absurd (h.decomp d o d2).2.1 (a1 ▸ a2.hidden)
    exact ⟨hb, hxn, p, es, base, e, w, d, h1, h2, h4, d1, hxd, d2, hk, he, w1, w2, w3⟩

/-- the object of an input or declared variable is not a result -/
theorem Inv.notResult (h : Inv objs0 L S st) {n o i : Nat} {t : Stmt K F} (ht : (n, t) ∈ L) (hn : st.env[n]? = some o) (hr : IsResult st.objs o i) :
    (∀ nm sh v, t ≠ .input nm sh v) ∧ ∀ nm sh e, t ≠ .declare nm sh e := by
  obtain ⟨q, q1, q2, q3, _⟩ := hr
  constructor
  · rintro nm sh v rfl
    obtain ⟨o', ho', h1⟩ := forall₂_mem_right h.inputs (List.mem_filterMap.2 ⟨_, ht, rfl⟩)
    simp only at h1
    rw [hn] at h1
    cases h1.1
    obtain ⟨_, p, p1, p2, p3⟩ := h.inputRole o ho'
    rw [q1] at p1; cases p1
    rw [q3] at p3; cases p3
  · rintro nm sh e rfl
    obtain ⟨o', ho', h1⟩ := forall₂_mem_right h.declared (List.mem_filterMap.2 ⟨_, ht, rfl⟩)
    simp only at h1
    rw [hn] at h1
    cases h1.1
    obtain ⟨_, p, p1, p2, p3⟩ := h.declaredRole o ho'
    rw [q1] at p1; cases p1
    rw [q3] at p3; cases p3

/-- an operation that assembles an output is not the operation of a statement -/
theorem lowered_asm {sh : Nat → Shape} {t : Stmt K F} {k : Kind K F} {as : List Nat} {n base : Nat} (h : Lowered sh t k as n base) : ¬ k.IsAsm := by
  rintro ⟨_, _, _, rfl⟩
  cases h

/-- an output that is assembled from parts is not the result of a statement -/
theorem Inv.outputNotResult (h : Inv objs0 L S st) {n o i n' : Nat} {t : Stmt K F} {nm : Name} {sh : Shape} {val : Val K} (ht : (n, .output nm sh val) ∈ L) (hn : st.env[n]? = some o)
    (hi : OpOf st.objs st.env n' t i) (hr : IsResult st.objs o i) : False := by
  obtain ⟨v, c, h1, h2, _⟩ := h.made n nm sh val ht
  rw [hn] at h1
  cases h1
  obtain ⟨p, es, a1, _, _, _, _, _, _, _, a9⟩ := (h.concat _ c val h2).asm
  obtain ⟨q, q1, _, _, q4, _⟩ := hr
  rw [a1] at q1
  cases q1
  obtain ⟨r, k, as, m, base, r1, r2, r3, r4, _⟩ := hi
  rcases a9 with ⟨_, b2, _⟩ | ⟨_, _, o', q, b3, _, b5, _, _, b8, _⟩
  · rw [q4] at b2; cases b2
  · rw [q4] at b3
    cases b3
    rw [r1] at b5
    cases b5
    rw [r4] at b8
    cases b8
    exact lowered_asm r3 ⟨_, _, _, rfl⟩

/-- the variable is the first one of its object, or the same as an earlier one -/
theorem Inv.down (h : Inv objs0 L S st) {x o : Nat} (hx : st.env[x]? = some o) : (∀ z < x, st.env[z]? ≠ some o) ∨
    ∃ y < x, st.env[y]? = some o ∧ ((x, .expr (.pos y)) ∈ L ∨ ∃ u v k l d, (x, .index u k) ∈ L ∧ (y, .index v l) ∈ L ∧ u < x ∧ v < y ∧ st.env[u]? = some d ∧ st.env[v]? = some d ∧
      normalizeKey ((shapesOf L).getD u []) k = normalizeKey ((shapesOf L).getD v []) l) := by
  classical
  by_cases hf : ∀ z < x, st.env[z]? ≠ some o
  · exact Or.inl hf
  right
  have hex : ∃ z, st.env[z]? = some o := ⟨x, hx⟩
  obtain ⟨y, hy1, hy2⟩ : ∃ y, st.env[y]? = some o ∧ ∀ z < y, st.env[z]? ≠ some o := ⟨Nat.find hex, Nat.find_spec hex, fun z hz => Nat.find_min hex hz⟩
  have hyx : y < x := by
    by_contra hc
    refine hf fun z hz => hy2 z (by omega)
  obtain ⟨n, t, h1, h2, h3⟩ := h.cover x (lt_of_some hx)
  rcases h.fresh n t h1 with (⟨d, rfl⟩ | ⟨u, k, rfl⟩) | hf'
  · obtain rfl : x = n := by simp [Stmt.count] at h3; omega
    cases h.stmts x _ h1 with
    | «alias» a1 a2 a3 a4 =>
      rw [a4] at hx
      cases hx
      exact ⟨d, a2, a3, Or.inl h1⟩
    | op o' ho' =>
      obtain ⟨p, k, as, m', base, _, _, hl, _⟩ := ho'
      exact absurd ⟨d, rfl⟩ (lowered_facts hl).2.2.1
  · obtain rfl : x = n := by simp [Stmt.count] at h3; omega
    refine ⟨y, hyx, hy1, Or.inr ?_⟩
    cases h.stmts x _ h1 with
    | op i hi =>
      obtain ⟨hb, hux, p, es, base, e, w, d, p1, p2, p3, p4, p5, p6, p7, p8, p9, p10, p11⟩ := h.indexOp h1 hi
      rw [p10] at hx
      cases hx
      obtain ⟨n', t', g1, g2, g3⟩ := h.cover y (lt_of_some hy1)
      cases h.stmts n' t' g1 with
      | input nm sh v =>
        obtain rfl : y = n' := by simp [Stmt.count] at g3; omega
        exact absurd rfl ((h.notResult g1 hy1 p11).1 nm sh v)
      | declare nm sh e =>
        obtain rfl : y = n' := by simp [Stmt.count] at g3; omega
        exact absurd rfl ((h.notResult g1 hy1 p11).2 nm sh e)
      | register => simp [Stmt.count] at g3; omega
      | connect => simp [Stmt.count] at g3; omega
      | assign => simp [Stmt.count] at g3; omega
      | output nm sh val =>
        obtain rfl : y = n' := by simp [Stmt.count] at g3; omega
        exact (h.outputNotResult g1 hy1 hi p11).elim
      | «alias» a1 a2 a3 a4 =>
        obtain rfl : y = n' := by simp [Stmt.count] at g3; omega
        rw [hy1] at a4
        cases a4
        exact absurd a3 (hy2 _ a2)
      | op i' hi' =>
        have hi'0 := hi'
        obtain ⟨p', k', as', m', base', b1, b2, b3, b4, b5, b6, b7, b8⟩ := hi'
        obtain ⟨rfl, rfl, _, _⟩ := lowered_facts b3
        obtain ⟨w', w1, w2, q', c1, c2, c3, c4, c5⟩ := b6 (y - n') (by omega)
        rw [show n' + (y - n') = y by omega, hy1] at w2
        cases w2
        obtain ⟨q, d1, d2, d3, d4, d5⟩ := p11
        rw [d1] at c1
        cases c1
        obtain rfl : i = i' := by rw [d4] at c4; simpa using c4
        rw [p1] at b1
        cases b1
        rw [p3] at b4
        cases b4
        obtain ⟨v, l, _, _, rfl, _⟩ := lowered_part b3 ⟨_, _, rfl⟩
        obtain rfl : y = n' := by simp [Stmt.count] at g3; omega
        obtain ⟨_, hvy, p', es', base'', e', w', d', r1, r2, r3, r4, r5, r6, r7, r8, r9, r10, r11⟩ := h.indexOp g1 hi'0
        rw [p1] at r1
        cases r1
        rw [p3] at r3
        injection r3 with r3
        injection r3 with r3a r3b
        subst r3b
        rw [p4] at r4
        cases r4
        rw [hy1] at r10
        cases r10
        have hnd := (h.opGood p1 hb p2).2.2.1
        have hbb := (List.getElem?_inj (lt_of_some p9) hnd).1 (p9.trans r9.symm)
        subst hbb
        rw [p8] at r8
        cases r8
        refine ⟨u, v, k, l, d, h1, g1, hux, hvy, p5, r5, ?_⟩
        rw [h.shapeAt (lt_of_some p5), h.shapeAt (lt_of_some r5), (keyPart_key p7).1, (keyPart_key r7).1]
  · exact absurd hy1 (hf' x o h2 h3 hx y hyx)

/-- two variables with the same object -/
theorem Inv.alias_of_env (h : Inv objs0 L S st) : ∀ N x y o, x ≤ N → y ≤ N → st.env[x]? = some o → st.env[y]? = some o → Alias L x y := by
  intro N
  induction N using Nat.strong_induction_on with
  | _ N ih =>
    intro x y o hN hN' hx hy
    wlog hxy : y ≤ x generalizing x y
    · exact .symm (this y x hN' hN hy hx (by omega))
    rcases Nat.lt_or_ge y x with hlt | hge
    · rcases h.down hx with h1 | ⟨z, hz, h1, h2 | ⟨u, v, k, l, d, h2, h3, h4, h5, h6, h7, h8⟩⟩
      · exact absurd hy (h1 y hlt)
      · exact .trans (.plus h2) (ih (x - 1) (by omega) z y o (by omega) (by omega) h1 hy)
      · exact .trans (.part h2 h3 (ih (x - 1) (by omega) u v d (by omega) (by omega) h6 h7) h8) (ih (x - 1) (by omega) z y o (by omega) (by omega) h1 hy)
    · obtain rfl : x = y := by omega
      exact .refl x

/-- a variable that is `+` another -/
theorem Inv.plus_env (h : Inv objs0 L S st) {x y : Nat} (hx : (x, .expr (.pos y)) ∈ L) : y < x ∧ ∃ o, st.env[x]? = some o ∧ st.env[y]? = some o := by
  cases h.stmts x _ hx with
  | «alias» a1 a2 a3 a4 => exact ⟨a2, _, a4, a3⟩
  | op o' ho' =>
    obtain ⟨p, k, as, m', base, _, _, hl, _⟩ := ho'
    exact absurd ⟨y, rfl⟩ (lowered_facts hl).2.2.1

theorem Inv.index_op (h : Inv objs0 L S st) {n x : Nat} {key : Key} (hn : (n, .index x key) ∈ L) : ∃ o, OpOf st.objs st.env n (.index x key) o := by
  cases h.stmts n _ hn with
  | op o ho => exact ⟨o, ho⟩

/-- aliases have the same object -/
theorem Inv.env_of_alias (h : Inv objs0 L S st) {x y : Nat} (ha : Alias L x y) : st.env[x]? = st.env[y]? := by
  induction ha with
  | refl => rfl
  | symm _ ih => exact ih.symm
  | trans _ _ ih1 ih2 => exact ih1.trans ih2
  | plus hx =>
    obtain ⟨_, o, h1, h2⟩ := h.plus_env hx
    rw [h1, h2]
  | @part x y u v k l hx hy _ hk ih =>
    obtain ⟨i, hi⟩ := h.index_op hx
    obtain ⟨j, hj⟩ := h.index_op hy
    obtain ⟨_, hux, p, es, base, e, w, d, p1, p2, p3, p4, p5, p6, p7, p8, p9, p10, p11⟩ := h.indexOp hx hi
    obtain ⟨_, hvy, p', es', base', e', w', d', r1, r2, r3, r4, r5, r6, r7, r8, r9, r10, r11⟩ := h.indexOp hy hj
    rw [p5, r5] at ih
    cases ih
    rw [p6] at r6
    cases r6
    rw [p1] at r1
    cases r1
    rw [p3] at r3
    injection r3 with r3
    injection r3 with r3a r3b
    subst r3b
    rw [h.shapeAt (lt_of_some p5), h.shapeAt (lt_of_some r5), (keyPart_key p7).1, (keyPart_key r7).1] at hk
    injection hk with hk
    obtain ⟨_, _, q, fs, q1, _, q2, _, _, q3, _⟩ := h.decomp d i p6
    rw [p1] at q1
    cases q1
    rw [p3] at q2
    injection q2 with q2
    injection q2 with _ q2
    subst q2
    have hbb : base = base' := by
      refine (List.getElem?_inj (l := es.map (·.1)) (by simpa using lt_of_some p8) q3).1 ?_
      rw [List.getElem?_map, List.getElem?_map, p8, r8, Option.map_some, Option.map_some, hk]
    subst hbb
    rw [p9] at r9
    cases r9
    rw [p10, r10]

/-- two variables are one and the same if and only if they have the same object -/
theorem Inv.alias_iff (h : Inv objs0 L S st) {x y : Nat} (hx : x < st.env.length) : Alias L x y ↔ st.env[x]? = st.env[y]? := by
  refine ⟨h.env_of_alias, fun he => ?_⟩
  rw [List.getElem?_eq_getElem hx] at he
  exact h.alias_of_env _ x y _ (Nat.le_max_left x y) (Nat.le_max_right x y) (List.getElem?_eq_getElem hx) he.symm

end Csdl.Prog
