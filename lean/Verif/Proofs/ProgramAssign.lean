import Verif.Proofs.Program3
/-
Assignments to parts of outputs preserve the invariant.
-/
namespace Csdl.Prog
open Csdl Csdl.Arith
variable {K F : Type} [Field K] [DecidableEq K]

theorem Inv.opGood {objs0 : Foreign K F} {L : List (Nat × Stmt K F)} {S : List (Name × Option (List Name))} {st : St K F} (h : Inv objs0 L S st) {o : Nat} {p : PObj K F} (hp : st.objs[o]? = some p)
    (hb : objs0.Own o) (hk : p.obj.kind = .op) : (∀ d ∈ p.obj.deps, objs0.Own d ∧ IsVar st.objs d) ∧ (∀ v ∈ p.obj.outs, IsResult st.objs v o) ∧ p.obj.outs.Nodup ∧
      ((∀ v ∈ p.obj.outs, ∃ n s x, (n, s) ∈ L ∧ OpOf st.objs st.env n s o ∧ n ≤ x ∧ x < n + s.count ∧ st.env[x]? = some v) ∨ (∃ d ∈ st.env, CopyOp st.objs st.env o d ∧ objs0.Own (o + 1)) ∨
        ∃ k v, p.op = some k ∧ k.IsAsm ∧ p.obj.outs = [v] ∧ v ∈ st.env ∧ (∀ d ∈ p.obj.deps, d ∈ st.env)) := by
  cases h.good o p hp hb with
  | op _ h2 h3 h4 h5 => exact ⟨h2, h3, h4, h5⟩
  | input h1 => rw [hk] at h1; cases h1
  | declared h1 => rw [hk] at h1; cases h1
  | concat h1 => rw [hk] at h1; cases h1
  | result _ _ h1 => rw [hk] at h1; cases h1
  | model h1 => rw [hk] at h1; cases h1

omit [Field K] [DecidableEq K] in
theorem shapeOf_obj (objs : List (PObj K F)) (v : Nat) (hv : v < objs.length) : shapeOf objs v = (objects objs v).shape := by
  rw [shapeOf_eq (List.getElem?_eq_getElem hv), objects_eq (List.getElem?_eq_getElem hv)]

/-- an assignment that succeeds -/
theorem setItem_ok {c c' : Concat} {key : Key} {r : Rhs} (h : setItem c key r = (c', none)) : ∃ idx, tgtIndices c.shape key = .ok (idx, r.shape) ∧ (∀ i ∈ idx, i < (c.shape.size : Int)) ∧
    c.tgt.has r.name = false ∧ (∀ i ∈ c.checked, i ∉ idx) ∧ c'.shape = c.shape ∧ c'.tgt = c.tgt.set r.name idx ∧ c'.checked = c.checked ++ idx ∧ c'.deps.isSome = true := by
  unfold setItem at h
  cases ht : tgtIndices c.shape key with
  | error e => rw [ht] at h; cases h
  | ok t =>
    obtain ⟨idx, shp⟩ := t
    rw [ht] at h
    simp only at h
    split at h
    · cases h
    · rename_i h1
      split at h
      · cases h
      · rename_i h2
        split at h
        · cases h
        · rename_i h3
          split at h
          · cases h
          · rename_i h4
            cases h
            refine ⟨idx, by rw [not_not.1 h1], ?_, by simpa using h3, ?_, rfl, rfl, rfl, ?_⟩
            · intro i hi
              simp only [List.any_eq_true, decide_eq_true_eq, not_exists, not_and] at h2
              have := h2 i hi
              omega
            · intro i hi hii
              rw [not_not, List.filter_eq_nil_iff] at h4
              exact h4 i hi (by simpa using hii)
            · simp only
              split <;> rfl

/-- the parts of the invariant that do not depend on what exactly an assignment to a part of `v` changes -/
theorem Inv.assign' {objs0 : Foreign K F} {L : List (Nat × Stmt K F)} {S : List (Name × Option (List Name))} {st : St K F} (h : Inv objs0 L S st) {y : Nat} {key : Key} {x v : Nat} {c c' : Concat} {val : Val K}
    {objs' : List (PObj K F)} (hy : st.env[y]? = some v) (hx : x < st.env.length) (hv : st.concat.get? v = some (c, val)) (hsh : c'.shape = c.shape)
    (hext : Ext st.objs objs')
    (hold : ∀ i p q, st.objs[i]? = some q → objs'[i]? = some p → p = q ∨ (objs0.Own i ∧ p.obj.name = q.obj.name ∧ p.obj.auto = q.obj.auto ∧
      Good objs0.Own (L ++ [(st.env.length, .assign y key x)]) { st with objs := objs', concat := st.concat.set v (c', val) } i p ∧ (i = v ∨ ∃ k, q.obj.kind = .op ∧ q.op = some k ∧ k.IsAsm ∧ q.obj.outs = [v])))
    (hgood : ∀ i p, objs'[i]? = some p → st.objs.length ≤ i → Good objs0.Own (L ++ [(st.env.length, .assign y key x)]) { st with objs := objs', concat := st.concat.set v (c', val) } i p ∧
      p.obj.auto = genHexName i ∧ p.obj.name = p.obj.auto ∧ ∃ k, p.op = some k ∧ k.IsAsm ∧ p.obj.outs = [v])
    (hasm : Asm objs0.Own (L ++ [(st.env.length, .assign y key x)]) objs' st.env v c' val)
    (hres : ∀ i p k, objs'[i]? = some p → objs0.Own i → p.op = some k → k.IsAsm → p.obj.outs = [v] → ∃ q, objs'[v]? = some q ∧ q.obj.deps = [i]) :
    Inv objs0 (L ++ [(st.env.length, .assign y key x)]) S { st with objs := objs', concat := st.concat.set v (c', val) } := by
  have hsplit : ∀ i p, objs'[i]? = some p → st.objs.length ≤ i ∨ ∃ q, st.objs[i]? = some q := by
    intro i p hi
    by_cases hl : i < st.objs.length
    · exact Or.inr ⟨_, List.getElem?_eq_getElem hl⟩
    · exact Or.inl (by omega)
  have hsame : ∀ (i : Nat) (p q : PObj K F), st.objs[i]? = some p → objs'[i]? = some q → (i ≠ v ∧ ∀ k, p.op = some k → k.IsAsm → p.obj.outs ≠ [v]) → q = p := by
    intro i p q h1 h2 h3
    rcases hold i q p h1 h2 with h4 | ⟨_, _, _, _, h4 | ⟨k, _, h5, h6, h7⟩⟩
    · exact h4
    · exact absurd h4 h3.1
    · exact absurd h7 (h3.2 k h5 h6)
  have hop : ∀ (i : Nat) (p : PObj K F) (k : Kind K F), st.objs[i]? = some p → p.obj.kind = .op → p.op = some k → ¬ k.IsAsm → objs'[i]? = some p := by
    intro i p k h1 h2 h3 h4
    obtain ⟨q, h5, _⟩ := hext i p h1
    rw [h5, hsame i p q h1 h5 ⟨?_, fun k' h6 h7 => ?_⟩]
    · rintro rfl
      obtain ⟨q', _, h6, h7, _⟩ := (h.concat _ c val hv).asm
      rw [h1] at h6
      cases h6
      rw [h2] at h7
      cases h7
    · rw [h3] at h6
      cases h6
      exact absurd h7 h4
  rw [← List.append_nil S]
  have hve := List.mem_of_getElem? hy
  have hyl := lt_of_some hy
  refine h.extend' (e := []) (in' := []) (de' := []) (ou' := []) (su' := []) hext ?_ (by simp) (by simp) (by simp) (by simp) (by simp) (by simp) ?_ (Or.inr ⟨by simp, by simp, by simp⟩) ?_ ?_ .nil .nil .nil
    (by simp) (by simp) (by simp) (by simp) (by simp) ?_ rfl .nil (by simpa using h.subNames.1) ?_ ?_ ?_ ?_ ?_
    ⟨fun w cv hw => (by simp only [Dict.get?_set]; split; exacts [⟨_, rfl⟩, ⟨cv, hw⟩]), fun n z k x' hs => ?_⟩
  · intro i p q h1 h2
    exact (hold i p q h1 h2).imp id fun ⟨a1, a2, a3, a4, _⟩ => ⟨a1, a2, a3, a4⟩
  · intro n s hs
    obtain ⟨rfl, rfl⟩ : n = st.env.length ∧ s = .assign y key x := by simpa using hs
    exact ⟨by simp [Stmt.count], .assign hyl hx⟩
  · exact fun z h1 h2 => absurd h1 (by simpa using h2)
  · intro i p h1 h2
    obtain ⟨a1, a2, a3, _⟩ := hgood i p h1 h2
    exact ⟨a1, a2, Or.inr (Or.inr (Or.inr (Or.inr a3)))⟩
  · simp only [List.foldl_cons, List.foldl_nil, stepShapes]
    exact List.map_congr_left fun w hw => hext.shape (h.lt w hw)
  · intro w o ho
    obtain ⟨h1, h2, p, es, h3, h4, h5, h6, h7, h8⟩ := h.decomp w o ho
    refine ⟨h1, h2, p, es, hop o p _ h3 h4 h5 (by rintro ⟨_, _, _, h⟩; cases h), h4, ?_⟩
    simp only [hext.shape (h.lt w h2)]
    refine ⟨h5, h6, h7.imp fun e w hw => ?_, h8⟩
    obtain ⟨q, h9, h10, h11⟩ := hw
    obtain ⟨q', h12, g⟩ := hext w q h9
    exact ⟨q', h12, g.kind.trans h10, g.shape.trans h11⟩
  · intro i p sh es hi hb hp
    rcases hsplit i p hi with hl | ⟨q, hq⟩
    · obtain ⟨_, _, _, k, h1, ⟨_, _, _, rfl⟩, _⟩ := hgood i p hi hl
      rw [hp] at h1
      cases h1
    · rcases hold i p q hq hi with rfl | ⟨_, _, _, h1, h2⟩
      · exact h.parts i p sh es hq hb hp
      · obtain ⟨r, h3, g⟩ := hext i q hq
        have hi : objs'[i]? = some p := hi
        rw [hi] at h3
        cases h3
        rcases h2 with rfl | ⟨k, h2, h3, ⟨_, _, _, rfl⟩, _⟩
        · obtain ⟨q', _, h6, h7, _⟩ := (h.concat _ c val hv).asm
          rw [hq] at h6
          cases h6
          have hn : q.op = some (.part sh es) := by
            cases g.change with
            | same _ _ h8 => rw [← h8]; exact hp
            | part _ _ _ h8 => rw [h7] at h8; cases h8
            | defined _ _ _ _ h8 => rw [← h8]; exact hp
            | asm _ _ _ _ h8 => rw [h7] at h8; cases h8
          obtain ⟨w, h8, h9⟩ := h.parts i q sh es hq hb hn
          obtain ⟨_, _, p', _, h10, h11, _⟩ := h.decomp w i h9
          rw [hq] at h10
          cases h10
          rw [h7] at h11
          cases h11
        · cases g.change with
          | same _ _ h8 => rw [h8, h3] at hp; cases hp
          | part _ _ _ _ _ _ h8 => rw [h3] at h8; cases h8
          | defined h8 => rw [h2] at h8; cases h8
          | asm _ _ _ _ _ _ _ h8 h9 => rw [h9] at hp; cases hp
  · intro w d val' hw
    rw [Dict.get?_set] at hw
    split at hw
    · rename_i hvw
      subst hvw
      cases hw
      exact hasm
    · rename_i hvw
      refine (h.concat w d val' hw).mono hext List.prefix_rfl h.lt (fun _ _ _ _ hs => h.assignLt hs) ?_ ?_ ?_
      · intro p q h1 h2
        rw [hsame w p q h1 h2 ⟨fun e => hvw e.symm, ?_⟩]
        · exact .refl _
        · intro k h3 h4 h5
          obtain ⟨q', _, h6, _, _, h7, _⟩ := (h.concat w d val' hw).asm
          rw [h1] at h6
          cases h6
          rw [h7] at h5
          cases h5
      · intro o p q k h1 h2 h3 h4 h5 h6
        rw [hsame o p q h1 h2 ⟨?_, ?_⟩]
        · exact .refl _
        · rintro rfl
          obtain ⟨q', _, h7, h8, _⟩ := (h.concat _ c val hv).asm
          rw [h1] at h7
          cases h7
          rw [h3] at h8
          cases h8
        · intro _ _ _ h7
          rw [h6] at h7
          exact hvw (by simpa using h7.symm)
      · simp only [assignsTo, List.filterMap_cons, List.filterMap_nil]
        rw [if_neg]
        rw [hy]
        exact fun e => hvw (by simpa using e)
  · intro n name sh val' hs
    rcases List.mem_append.1 hs with hs | hs
    · obtain ⟨w, d, h1, h2, h3, h4⟩ := h.made n name sh val' hs
      simp only [Dict.get?_set]
      by_cases hvw : v = w
      · subst hvw
        rw [hv] at h2
        cases h2
        exact ⟨v, c', h1, by simp, hsh.trans h3, h4⟩
      · exact ⟨w, d, h1, by rw [if_neg hvw]; exact h2, h3, h4⟩
    · simp at hs
  · intro i p k hi hb hp hk
    have hi : objs'[i]? = some p := hi
    by_cases hpv : p.obj.outs = [v]
    · obtain ⟨q, h1, h2⟩ := hres i p k hi hb hp hk hpv
      exact ⟨v, c', val, q, hpv, by simp only [Dict.get?_set, if_true], h1, h2⟩
    · rcases hsplit i p hi with hl | ⟨q, hq⟩
      · obtain ⟨_, _, _, _, _, _, h1⟩ := hgood i p hi hl
        exact absurd h1 hpv
      · have hqp : p = q := by
          rcases hold i p q hq hi with h1 | ⟨_, _, _, _, h2⟩
          · exact h1
          · obtain ⟨r, h3, g⟩ := hext i q hq
            rw [hi] at h3
            cases h3
            exfalso
            rcases h2 with rfl | ⟨_, h3, h4, ⟨_, _, _, rfl⟩, h5⟩
            · obtain ⟨q', _, h6, h7, _⟩ := (h.concat _ c val hv).asm
              rw [hq] at h6
              cases h6
              have hn : q.op = some k := by
                cases g.change with
                | same _ _ h8 => rw [← h8]; exact hp
                | part _ _ _ h8 => rw [h7] at h8; cases h8
                | defined _ _ _ _ h8 => rw [← h8]; exact hp
                | asm _ _ _ _ h8 => rw [h7] at h8; cases h8
              obtain ⟨w, d, _, r, h8, h9, h10, h11⟩ := h.asms i q k hq hb hn hk
              obtain ⟨r', _, h12, _, _, h13, _⟩ := (h.concat _ c val hv).asm
              rw [hq] at h12
              cases h12
              rw [h13] at h8
              cases h8
            · exact hpv ((by
                cases g.change with
                | same _ h8 _ => rw [h8, h5]
                | part _ _ _ _ _ _ h8 => rw [h4] at h8; cases h8
                | defined h8 => rw [h3] at h8; cases h8
                | asm _ _ _ _ _ _ h8 _ _ => rw [h8, h5]))
        subst hqp
        obtain ⟨w, d, val', r, h1, h2, h3, h4⟩ := h.asms i p k hq hb hp hk
        have hvw : w ≠ v := fun e => hpv (by rw [h1, e])
        obtain ⟨r', h5, _⟩ := hext w r h3
        refine ⟨w, d, val', r, h1, by simp only [Dict.get?_set]; rw [if_neg (Ne.symm hvw)]; exact h2, ?_, h4⟩
        show objs'[w]? = some r
        rw [h5, hsame w r r' h3 h5 ⟨hvw, ?_⟩]
        intro k' h6 h7 h8
        obtain ⟨r'', _, h9, _, _, h10, _⟩ := (h.concat w d val' h2).asm
        rw [h3] at h9
        cases h9
        rw [h10] at h8
        cases h8
  · obtain ⟨rfl, rfl, rfl, rfl⟩ : n = st.env.length ∧ z = y ∧ k = key ∧ x' = x := by simpa using hs
    exact ⟨v, _, hy, by simp only [Dict.get?_set, if_true]; rfl⟩

omit [Field K] [DecidableEq K] in
theorem getD_some {env : List Nat} {x : Nat} (h : x < env.length) : env[x]? = some (env.getD x 0) := by
  rw [List.getD_eq_getElem?_getD, List.getElem?_eq_getElem h]; rfl

omit [Field K] [DecidableEq K] in
theorem assignsTo_one (env : List Nat) (n y : Nat) (key : Key) (x : Nat) (v : Nat) (hy : env[y]? = some v) : assignsTo env v [(n, (Stmt.assign y key x : Stmt K F))] = [(key, x)] := by
  simp [assignsTo, hy]

theorem Inv.assign {objs0 : Foreign K F} {L : List (Nat × Stmt K F)} {S : List (Name × Option (List Name))} {st st' : St K F} (h : Inv objs0 L S st) {y : Nat} {key : Key} {x : Nat}
    (hy : y < st.env.length) (hx : x < st.env.length) (he : execAssign st (st.env.getD y 0) key (st.env.getD x 0) = .ok st') :
    Inv objs0 (L ++ [(st.env.length, .assign y key x)]) S st' ∧ st'.env.length = st.env.length + (Stmt.assign y key x : Stmt K F).count ∧ st'.subs = st.subs := by
  have hyv := getD_some hy
  have hxo := getD_some hx
  generalize st.env.getD y 0 = v at hyv he
  generalize hxd : st.env.getD x 0 = xo at hxo he
  have hxe := List.mem_of_getElem? hxo
  have hve := List.mem_of_getElem? hyv
  unfold execAssign at he
  cases hcv : st.concat.get? v with
  | none => rw [hcv] at he; cases he
  | some cv =>
    obtain ⟨c, val⟩ := cv
    rw [hcv] at he
    simp only at he
    cases hset : setItem c key ⟨xo, nameOf st.objs xo, shapeOf st.objs xo⟩ with
    | mk c' er =>
      rw [hset] at he
      cases er with
      | some e => cases he
      | none =>
        obtain ⟨idx, s1, s2, s3, s4, s5, s6, s7, s8⟩ := setItem_ok hset
        simp only at s1 s3 s6
        simp only at he
        rw [s6, Dict.get?_set, if_pos rfl, Option.getD_some] at he
        simp only [Except.ok.injEq] at he
        have hcount : (Stmt.assign y key x : Stmt K F).count = 0 := rfl
        obtain ⟨p, es, a1, a2, a3, a4, a5, a6, a7, a8, a9⟩ := (h.concat v c val hcv).asm
        obtain ⟨n0, nm0, hst0, hst1⟩ := (h.concat v c val hcv).stmt
        have hsx : shapeOf st.objs xo = shapeAt st.objs st.env x := by
          unfold shapeAt
          rw [hxd, shapeOf_obj _ _ (h.lt xo hxe)]
        generalize hsxx : shapeOf st.objs xo = sx at *
        have hvl := lt_of_some a1
        have hvb := (h.env v hve).1
        have hA : assignsTo st.env v (L ++ [(st.env.length, (Stmt.assign y key x : Stmt K F))]) = assignsTo st.env v L ++ [(key, x)] := by
          rw [assignsTo_append, assignsTo_one _ _ _ _ _ _ hyv]
        have hforall : ∀ objs' : List (PObj K F), Ext st.objs objs' →
            List.Forall₂ (fun (kx : Key × Nat) (e : Shape × List Int) => e.1 = shapeAt objs' st.env kx.2 ∧ tgtIndices c'.shape kx.1 = .ok (e.2, e.1) ∧ ∀ i ∈ e.2, i < (c'.shape.size : Int))
              (assignsTo st.env v (L ++ [(st.env.length, (Stmt.assign y key x : Stmt K F))])) (es ++ [(sx, idx)]) := by
          intro objs' hext
          have hsa : ∀ a, a < st.env.length → shapeAt objs' st.env a = shapeAt st.objs st.env a := by
            intro a ha
            unfold shapeAt
            exact hext.shape (h.lt _ (List.mem_of_getElem? (getD_some ha)))
          rw [hA, s5]
          refine List.rel_append ?_ (.cons ⟨hsx.trans (hsa x hx).symm, s1, s2⟩ .nil)
          rw [List.forall₂_iff_get] at a6 ⊢
          refine ⟨a6.1, fun i hi hi' => ?_⟩
          obtain ⟨b1, b2⟩ := a6.2 i hi hi'
          refine ⟨b1.trans (hsa _ ?_).symm, b2⟩
          obtain ⟨n, z, b3, _⟩ := assignsTo_mem.1 (List.get_mem (assignsTo st.env v L) ⟨i, hi⟩)
          exact (h.assignLt b3).2
        have hpair : (es ++ [(sx, idx)]).Pairwise fun e e' => ∀ i ∈ e.2, i ∉ e'.2 := by
          rw [List.pairwise_append]
          refine ⟨a7, by simp, fun e he e' he' i hi => ?_⟩
          obtain rfl : e' = (sx, idx) := by simpa using he'
          exact s4 i ((a8 i).2 ⟨e, he, hi⟩)
        have hchk : ∀ i, i ∈ c'.checked ↔ ∃ e ∈ es ++ [(sx, idx)], i ∈ e.2 := by
          intro i
          rw [s7, List.mem_append, a8]
          constructor
          · rintro (⟨e, b1, b2⟩ | hi)
            · exact ⟨e, by simp [b1], b2⟩
            · exact ⟨(sx, idx), by simp, hi⟩
          · rintro ⟨e, b1, b2⟩
            rcases List.mem_append.1 b1 with b1 | b1
            · exact Or.inl ⟨e, b1, b2⟩
            · obtain rfl : e = (sx, idx) := by simpa using b1
              exact Or.inr b2
        have hxb := h.env xo hxe
        rcases a9 with ⟨b1, b2, b3⟩ | ⟨b1, b2, o, q, b3, b4, b5, b6, b7, b8, b9⟩
        · -- the first assignment
          subst b1
          have hAL : assignsTo st.env v L = [] := List.forall₂_nil_right_iff.1 a6
          rw [b3, Option.isNone_none, if_pos rfl] at he
          subst he
          refine ⟨?_, by rw [hcount]; rfl, rfl⟩
          have hop : newAsm st.objs v xo (.assemble c.shape val [(sx, idx)]) = newAsm st.objs v xo (.assemble c'.shape val [(sx, idx)]) := by rw [s5]
          rw [hop]
          generalize hobjs : newAsm st.objs v xo (.assemble c'.shape val [(sx, idx)]) = objs'
          have hN : objs'[st.objs.length]? = some ⟨{ kind := .op, name := genHexName st.objs.length, auto := genHexName st.objs.length, deps := [xo], outs := [v] }, some (.assemble c'.shape val [(sx, idx)]), none⟩ := by
            rw [← hobjs, newAsm, List.getElem?_append_right (by simp)]
            simp
          have hV : objs'[v]? = some { p with obj := { p.obj with deps := [st.objs.length] } } := by
            rw [← hobjs, newAsm, List.getElem?_append_left (by simpa using hvl), List.getElem?_modify, a1]
            simp
          have hI : ∀ i, i < st.objs.length → i ≠ v → objs'[i]? = st.objs[i]? := by
            intro i hi hio
            rw [← hobjs, newAsm, List.getElem?_append_left (by simpa using hi), List.getElem?_modify]
            simp [Ne.symm hio]
          have hL' : objs'.length = st.objs.length + 1 := by rw [← hobjs]; simp [newAsm]
          clear hobjs hop
          have hext : Ext st.objs objs' := by
            intro i q hq
            by_cases hio : i = v
            · subst hio
              rw [a1] at hq; cases hq
              exact ⟨_, hV, rfl, rfl, rfl, rfl, rfl, rfl, .defined a2 a3 b2 rfl rfl⟩
            · exact ⟨q, (hI i (lt_of_some hq) hio).trans hq, .refl q⟩
          have hres : IsResult objs' v st.objs.length := ⟨_, hV, a2, a3, rfl, a4⟩
          refine h.assign' hyv hx hcv s5 hext ?_ ?_ ⟨⟨n0, nm0, List.mem_append_left _ (by rw [s5]; exact hst0), hst1⟩, _, [(sx, idx)], hV, a2, a3, a4, a5.trans s5.symm, hforall objs' hext, hpair, hchk, Or.inr ⟨by simp, s8, st.objs.length, _, rfl, (h.own (Nat.le_refl _)), hN, rfl, rfl, rfl, ?_⟩⟩ ?_
          · intro i p' q' h1 h2
            by_cases hio : i = v
            · subst hio
              rw [a1] at h1; cases h1
              rw [hV] at h2; cases h2
              exact Or.inr ⟨hvb, rfl, rfl, .result st.objs.length _ a2 a3 a4 rfl (h.own (Nat.le_refl _)) hN rfl (by simp), Or.inl rfl⟩
            · rw [hI i (lt_of_some h1) hio, h1] at h2
              exact Or.inl (by cases h2; rfl)
          · intro i p' h1 h2
            obtain rfl : i = st.objs.length := by
              have := lt_of_some h1
              omega
            rw [hN] at h1; cases h1
            refine ⟨.op rfl ?_ ?_ (by simp) (Or.inr (Or.inr ⟨_, v, rfl, ⟨_, _, _, rfl⟩, rfl, hve, ?_⟩)), rfl, rfl, _, rfl, ⟨_, _, _, rfl⟩, rfl⟩
            · intro d hd
              obtain rfl : d = xo := by simpa using hd
              exact ⟨hxb.1, hxb.2.mono hext⟩
            · intro w hw
              obtain rfl : w = v := by simpa using hw
              exact hres
            · intro d hd
              obtain rfl : d = xo := by simpa using hd
              exact hxe
          · rw [hA, hAL]
            simp [hxo]
          · intro i p' k h1 h2 h3 h4 h5
            by_cases hil : i < st.objs.length
            · by_cases hio : i = v
              · subst hio
                rw [hV] at h1; cases h1
                have : p.obj.outs = [i] := h5
                rw [a4] at this; cases this
              · rw [hI i hil hio] at h1
                obtain ⟨w, d, val', r, d1, d2, d3, d4⟩ := h.asms i p' k h1 h2 h3 h4
                rw [h5] at d1
                cases d1
                rw [a1] at d3; cases d3
                rw [b2] at d4; cases d4
            · obtain rfl : i = st.objs.length := by
                have := lt_of_some h1
                omega
              exact ⟨_, hV, rfl⟩
        · -- a later assignment
          have hno : c.deps.isNone = false := by cases hcd : c.deps with
            | none => rw [hcd] at b2; cases b2
            | some _ => rfl
          rw [hno, if_neg (by simp)] at he
          subst he
          refine ⟨?_, by rw [hcount]; rfl, rfl⟩
          have hgr : growAsm st.objs v xo (sx, idx) = st.objs.modify o fun p => addArg p xo (sx, idx) := by
            unfold growAsm
            rw [a1, Option.map_some, Option.getD_some, b3, List.headD_cons]
          rw [hgr]
          generalize hobjs : (st.objs.modify o fun p => addArg p xo (sx, idx)) = objs'
          have hq' : addArg q xo (sx, idx) = ⟨{ q.obj with deps := q.obj.deps ++ [xo] }, some (.assemble c'.shape val (es ++ [(sx, idx)])), q.val⟩ := by
            unfold addArg
            rw [b8, s5]
          have hO : objs'[o]? = some ⟨{ q.obj with deps := q.obj.deps ++ [xo] }, some (.assemble c'.shape val (es ++ [(sx, idx)])), q.val⟩ := by
            rw [← hobjs, List.getElem?_modify, b5]
            simp [hq']
          have hI : ∀ i, i ≠ o → objs'[i]? = st.objs[i]? := by
            intro i hio
            rw [← hobjs, List.getElem?_modify]
            simp [Ne.symm hio]
          have hL' : objs'.length = st.objs.length := by rw [← hobjs]; simp
          clear hobjs hgr
          have hvo : v ≠ o := by
            rintro rfl
            rw [a1] at b5; cases b5
            rw [a2] at b6; cases b6
          have hV : objs'[v]? = some p := (hI v hvo).trans a1
          have hext : Ext st.objs objs' := by
            intro i r hr
            by_cases hio : i = o
            · subst hio
              rw [b5] at hr; cases hr
              exact ⟨_, hO, rfl, rfl, rfl, rfl, rfl, rfl, .asm c.shape val es (es ++ [(sx, idx)]) b6 (List.prefix_append _ _) rfl b8 (by rw [s5]) (List.prefix_append _ _)⟩
            · exact ⟨r, (hI i hio).trans hr, .refl r⟩
          have hres : IsResult objs' v o := ⟨_, hV, a2, a3, b3, a4⟩
          obtain ⟨g1, g2, g3, g4⟩ := h.opGood b5 b4 b6
          have hdm : ∀ d ∈ q.obj.deps, d ∈ st.env := by
            intro d hd
            rw [b9] at hd
            obtain ⟨kx, e1, rfl⟩ := List.mem_map.1 hd
            obtain ⟨n, z, e2, _⟩ := assignsTo_mem.1 e1
            exact List.mem_of_getElem? (getD_some (h.assignLt e2).2)
          refine h.assign' hyv hx hcv s5 hext ?_ ?_ ⟨⟨n0, nm0, List.mem_append_left _ (by rw [s5]; exact hst0), hst1⟩, p, es ++ [(sx, idx)], hV, a2, a3, a4, a5.trans s5.symm, hforall objs' hext, hpair, hchk, Or.inr ⟨by simp, s8, o, _, b3, b4, hO, b6, b7, rfl, ?_⟩⟩ ?_
          · intro i p' q' h1 h2
            by_cases hio : i = o
            · subst hio
              rw [b5] at h1; cases h1
              rw [hO] at h2; cases h2
              refine Or.inr ⟨b4, rfl, rfl, .op b6 ?_ ?_ ?_ (Or.inr (Or.inr ⟨_, v, rfl, ⟨_, _, _, rfl⟩, b7, hve, ?_⟩)), Or.inr ⟨_, b6, b8, ⟨_, _, _, rfl⟩, b7⟩⟩
              · intro d hd
                rcases List.mem_append.1 hd with hd | hd
                · exact ⟨(g1 d hd).1, (g1 d hd).2.mono hext⟩
                · obtain rfl : d = xo := by simpa using hd
                  exact ⟨hxb.1, hxb.2.mono hext⟩
              · intro w hw
                simp only [b7, List.mem_singleton] at hw
                rw [hw]
                exact hres
              · simp [b7]
              · intro d hd
                rcases List.mem_append.1 hd with hd | hd
                · exact hdm d hd
                · obtain rfl : d = xo := by simpa using hd
                  exact hxe
            · rw [hI i hio, h1] at h2
              exact Or.inl (by cases h2; rfl)
          · intro i p' h1 h2
            have := lt_of_some h1
            omega
          · rw [hA, List.map_append, ← b9]
            simp [hxo]
          · intro i p' k h1 h2 h3 h4 h5
            by_cases hio : i = o
            · subst hio
              exact ⟨p, hV, b3⟩
            · rw [hI i hio] at h1
              obtain ⟨w, d, val', r, d1, d2, d3, d4⟩ := h.asms i p' k h1 h2 h3 h4
              rw [h5] at d1
              cases d1
              rw [a1] at d3; cases d3
              rw [b3] at d4
              exact absurd (by simpa using d4.symm) hio

end Csdl.Prog
