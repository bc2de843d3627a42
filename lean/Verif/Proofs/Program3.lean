import Verif.Proofs.Program2
/-
Operations preserve the invariant.
-/
namespace Csdl.Prog
open Csdl Csdl.Arith
variable {K F : Type}

theorem newOp_op (objs : List (PObj K F)) (k : Kind K F) (deps : List Nat) (shapes : List Shape) :
    (newOp objs k deps shapes)[objs.length]? = some (opObj objs.length k deps shapes.length) := getElem?_new _ _ _

theorem newOp_result (objs : List (PObj K F)) (k : Kind K F) (deps : List Nat) (shapes : List Shape) (j : Nat) (s : Shape) (hj : shapes[j]? = some s) :
    (newOp objs k deps shapes)[objs.length + 1 + j]? = some (resultObj objs.length j s) := by
  unfold newOp
  rw [List.getElem?_append_right (by omega), show objs.length + 1 + j - objs.length = j + 1 by omega, List.getElem?_cons_succ, List.getElem?_mapIdx, hj]
  rfl

theorem newOp_isResult (objs : List (PObj K F)) (k : Kind K F) (deps : List Nat) (shapes : List Shape) (j : Nat) (hj : j < shapes.length) :
    IsResult (newOp objs k deps shapes) (objs.length + 1 + j) objs.length :=
  ⟨_, newOp_result objs k deps shapes j _ (List.getElem?_eq_getElem hj), rfl, rfl, rfl, rfl⟩

variable [Field K] [DecidableEq K]

theorem Inv.newOp {objs0 : Foreign K F} {L T : List (Nat × Stmt K F)} {S : List (Name × Option (List Name))} {st : St K F} (h : Inv objs0 L S st) (k : Kind K F) (hk : ¬ k.IsPart ∧ ¬ k.IsAsm) (deps : List Nat)
    (shapes : List Shape) (e : List Nat) (hdeps : ∀ d ∈ deps, objs0.Own d ∧ IsVar st.objs d) (he : ∀ v ∈ e, ∃ j < shapes.length, v = st.objs.length + 1 + j)
    (hT : ∀ n s, (n, s) ∈ T → n + s.count ≤ st.env.length + e.length ∧ Done (Prog.newOp st.objs k deps shapes) (st.env ++ e) n s)
    (hnew : e.Nodup ∧ ∀ n s, (n, s) ∈ T → n = st.env.length)
    (hcov : ∀ x, st.env.length ≤ x → x < st.env.length + e.length → ∃ n s, (n, s) ∈ T ∧ n ≤ x ∧ x < n + s.count)
    (hop : (∀ v ∈ List.range' (st.objs.length + 1) shapes.length, ∃ n s x, (n, s) ∈ T ∧ OpOf (Prog.newOp st.objs k deps shapes) (st.env ++ e) n s st.objs.length ∧ n ≤ x ∧ x < n + s.count ∧
        (st.env ++ e)[x]? = some v) ∨
      ∃ d ∈ st.env, CopyOp (Prog.newOp st.objs k deps shapes) (st.env ++ e) st.objs.length d)
    (hti : T.filterMap inputOf = []) (htd : T.filterMap declaredOf = []) (hto : T.filterMap outputOf = [])
    (hsh : T.foldl (fun ss s => stepShapes ss s.2) (st.env.map fun o => (objects st.objs o).shape) =
      st.env.map (fun o => (objects st.objs o).shape) ++ e.map (fun o => (objects (Prog.newOp st.objs k deps shapes) o).shape))
    (hcs : T.foldl (fun cs s => stepConnections cs s.2) st.connections = st.connections)
    (hna : ∀ n s, (n, s) ∈ T → (∀ z key x, s ≠ .assign z key x) ∧ ∀ name sh val, s ≠ .output name sh val) :
    Inv objs0 (L ++ T) S { st with objs := Prog.newOp st.objs k deps shapes, env := st.env ++ e } := by
  rw [← List.append_nil S]
  have hb : ∀ {i : Nat}, st.objs.length ≤ i → objs0.Own i := fun hi => h.own hi
  have hvar : ∀ v ∈ e, IsVar (Prog.newOp st.objs k deps shapes) v := by
    intro v hv
    obtain ⟨j, hj, rfl⟩ := he v hv
    exact (newOp_isResult st.objs k deps shapes j hj).isVar
  refine h.extend (new := opObj st.objs.length k deps shapes.length :: shapes.mapIdx (resultObj st.objs.length)) (e := e) (in' := []) (de' := []) (su' := []) rfl rfl (by simp) (by simp) rfl
    (by simp) ?_ ?_ (Or.inr ⟨hnew.1, fun v hv => by obtain ⟨j, _, rfl⟩ := he v hv; omega, hnew.2⟩) ?_ ?_ (by rw [hti]; exact .nil) (by rw [htd]; exact .nil) hto (by simp) (by simp) (by simp) ?_ ?_ .nil ?_ rfl ?_ rfl hna
  · intro v hv
    obtain ⟨j, hj, rfl⟩ := he v hv
    exact ⟨Or.inr (by omega), hb (by omega), hvar _ hv⟩
  · intro n s hs
    have := hT n s hs
    exact ⟨by simpa using this.1, this.2⟩
  · intro x h1 h2
    exact hcov x h1 (by simpa using h2)
  · intro j p hj
    cases j with
    | zero =>
      obtain rfl : opObj st.objs.length k deps shapes.length = p := by simpa using hj
      refine ⟨.op rfl ?_ ?_ List.nodup_range' ?_, rfl, Or.inr (Or.inr (Or.inr (Or.inr rfl)))⟩
      · intro d hd
        have hd : d ∈ deps := hd
        exact ⟨(hdeps d hd).1, (hdeps d hd).2.mono (Ext.append _ _)⟩
      · intro v hv
        have hv : v ∈ List.range' (st.objs.length + 1) shapes.length := hv
        obtain ⟨j, hj, rfl⟩ := List.mem_range'.1 hv
        have := newOp_isResult st.objs k deps shapes j hj
        rw [show st.objs.length + 1 + 1 * j = st.objs.length + 1 + j by omega]
        exact this
      · rcases hop with hop | ⟨d, h1, h2⟩
        · refine Or.inl fun v hv => ?_
          obtain ⟨n, s, x, h1, h2⟩ := hop v hv
          exact ⟨n, s, x, List.mem_append_right _ h1, h2⟩
        · exact Or.inr (Or.inl ⟨d, List.mem_append_left _ h1, h2, hb (by omega)⟩)
    | succ j =>
      rw [List.getElem?_cons_succ, List.getElem?_mapIdx] at hj
      obtain ⟨s, hs, rfl⟩ := Option.map_eq_some_iff.1 hj
      refine ⟨.result st.objs.length (opObj st.objs.length k deps shapes.length) rfl rfl rfl rfl (hb (Nat.le_refl _)) (newOp_op _ _ _ _) rfl ?_, ?_, Or.inr (Or.inr (Or.inr (Or.inr rfl)))⟩
      · show _ ∈ List.range' (st.objs.length + 1) shapes.length
        exact List.mem_range'.2 ⟨j, lt_of_some hs, by omega⟩
      · show genHexName (st.objs.length + 1 + j) = _
        rw [show st.objs.length + 1 + j = st.objs.length + (j + 1) by omega]
  · simp only
    rw [hsh, List.map_append]
    congr 1
    exact shapes_append st _ h.lt
  · exact hcs.symm
  · simpa using h.subNames.1
  · intro j p k' hj hp
    cases j with
    | zero =>
      obtain rfl : opObj st.objs.length k deps shapes.length = p := by simpa using hj
      have : some k = some k' := hp
      cases this
      exact hk
    | succ j =>
      rw [List.getElem?_cons_succ, List.getElem?_mapIdx] at hj
      obtain ⟨s, hs, rfl⟩ := Option.map_eq_some_iff.1 hj
      cases hp

omit [DecidableEq K] in
theorem copyKind_notPart : ¬ (copyKind : Kind K F).IsPart ∧ ¬ (copyKind : Kind K F).IsAsm := by
  constructor
  · rintro ⟨_, _, h⟩
    cases h
  · rintro ⟨_, _, _, h⟩
    cases h

/-- a repeated argument is copied -/
theorem Inv.copy {objs0 : Foreign K F} {L : List (Nat × Stmt K F)} {S : List (Name × Option (List Name))} {st : St K F} (h : Inv objs0 L S st) (d : Nat) (hd : d ∈ st.env) (s : Shape) :
    Inv objs0 L S { st with objs := Prog.newOp st.objs copyKind [d] [s] } ∧ CopyOp (Prog.newOp st.objs copyKind [d] [s]) st.env st.objs.length d := by
  have hc : CopyOp (Prog.newOp st.objs copyKind [d] [s]) st.env st.objs.length d := by
    refine ⟨⟨_, newOp_op _ _ _ _, rfl, rfl, rfl, rfl⟩, newOp_isResult st.objs copyKind [d] [s] 0 (by simp), fun hm => ?_⟩
    have := (h.env _ hm).2.lt
    omega
  refine ⟨?_, hc⟩
  have := h.newOp (T := []) copyKind copyKind_notPart [d] [s] [] (fun x hx => (show x = d by simpa using hx) ▸ h.env _ hd) (by simp) (by simp) (by simp) (fun x h1 h2 => absurd h1 (by simpa using h2))
    (Or.inr ⟨d, hd, by simpa using hc⟩) rfl rfl rfl (by simp) rfl (by simp)
  simpa using this

theorem dedup_spec {objs0 : Foreign K F} {L : List (Nat × Stmt K F)} {S : List (Name × Option (List Name))} : ∀ (args : List Nat) (st : St K F) (seen : List Nat), Inv objs0 L S st →
    (∀ a ∈ args, a ∈ st.env) → Inv objs0 L S { st with objs := (dedup st.objs seen args).1 } ∧ st.objs <+: (dedup st.objs seen args).1 ∧
      List.Forall₂ (fun d a => ArgOk (dedup st.objs seen args).1 st.env d a ∧ objs0.Own d) (dedup st.objs seen args).2 args
  | [], st, _, h, _ => ⟨h, List.prefix_rfl, .nil⟩
  | a :: as, st, seen, h, ha => by
    unfold dedup
    split
    · have hc := h.copy a (ha a (by simp)) (shapeOf st.objs a)
      have ih := dedup_spec as { st with objs := newOp st.objs copyKind [a] [shapeOf st.objs a] } ((st.objs.length + 1) :: seen) hc.1 (fun x hx => ha x (by simp [hx]))
      refine ⟨ih.1, (List.prefix_append _ _).trans ih.2.1, .cons ⟨Or.inr ⟨_, rfl, hc.2.mono (.objsOnly ?_ _)⟩, ?_⟩ ih.2.2⟩
      · obtain ⟨t, ht⟩ := ih.2.1
        rw [← ht]; exact Ext.append _ _
      · exact h.own (by omega)
    · have ih := dedup_spec as st (a :: seen) h (fun x hx => ha x (by simp [hx]))
      exact ⟨ih.1, ih.2.1, .cons ⟨Or.inl rfl, (h.env a (ha a (by simp))).1⟩ ih.2.2⟩

omit [Field K] [DecidableEq K] in
theorem dedup_head [One K] (objs : List (PObj K F)) (a : Nat) (as : List Nat) : (dedup objs [] (a :: as)).2.headD 0 = a := by
  unfold dedup
  simp

theorem argOk_var {objs0 : Foreign K F} {L : List (Nat × Stmt K F)} {S : List (Name × Option (List Name))} {st : St K F} (h : Inv objs0 L S st) {d a : Nat} (ha : a ∈ st.env)
    (hd : ArgOk st.objs st.env d a) : IsVar st.objs d := by
  rcases hd with rfl | ⟨o, rfl, hc⟩
  · exact (h.env _ ha).2
  · exact hc.result.isVar

/-- the operation of a statement -/
theorem Inv.op {objs0 : Foreign K F} {L : List (Nat × Stmt K F)} {S : List (Name × Option (List Name))} {st : St K F} (h : Inv objs0 L S st) (s : Stmt K F) (k : Kind K F) (as : List Nat)
    (deps : List Nat) (shapes : List Shape) (hk : ¬ k.IsPart ∧ ¬ k.IsAsm) (hl : Lowered (shapeAt st.objs st.env) s k as shapes.length 0) (has : ∀ a ∈ as, a < st.env.length)
    (hdeps : List.Forall₂ (fun d a => ArgOk st.objs st.env d a ∧ objs0.Own d) deps (as.map (st.env.getD · 0)))
    (hsh : stepShapes (st.env.map fun o => (objects st.objs o).shape) s = (st.env.map fun o => (objects st.objs o).shape) ++ shapes) :
    Inv objs0 (L ++ [(st.env.length, s)]) S { st with objs := Prog.newOp st.objs k deps shapes, env := st.env ++ List.range' (st.objs.length + 1) shapes.length } := by
  have hcount : s.count = shapes.length := by
    generalize hm : shapes.length = m at hl
    cases hl with
    | expr => rfl
    | call => rfl
    | index => exact absurd ⟨_, _, rfl⟩ hk.1
  have hnot : inputOf (st.env.length, s) = none ∧ declaredOf (st.env.length, s) = none ∧ outputOf (st.env.length, s) = none ∧ (∀ cs, stepConnections cs s = cs) ∧
      (∀ z key x, s ≠ .assign z key x) ∧ ∀ name sh val, s ≠ .output name sh val := by
    generalize hm : shapes.length = m at hl
    cases hl with
    | index => exact absurd ⟨_, _, rfl⟩ hk.1
    | _ => exact ⟨rfl, rfl, rfl, fun _ => rfl, by simp, by simp⟩
  have hmem : ∀ a ∈ as.map (st.env.getD · 0), a ∈ st.env := by
    intro a ha
    obtain ⟨x, hx, rfl⟩ := List.mem_map.1 ha
    have := has x hx
    simp only [List.getD_eq_getElem?_getD, List.getElem?_eq_getElem this]
    exact List.getElem_mem this
  have hlater : Later st.objs st.env (Prog.newOp st.objs k deps shapes) (st.env ++ List.range' (st.objs.length + 1) shapes.length) := by
    refine ⟨Ext.append _ _, List.prefix_append _ _, fun v hv => ?_⟩
    rcases List.mem_append.1 hv with hv | hv
    · exact Or.inl hv
    · obtain ⟨j, hj, rfl⟩ := List.mem_range'.1 hv
      exact Or.inr (by omega)
  have hopof : OpOf (Prog.newOp st.objs k deps shapes) (st.env ++ List.range' (st.objs.length + 1) shapes.length) st.env.length s st.objs.length := by
    have hsh : ∀ a ∈ as, shapeAt (Prog.newOp st.objs k deps shapes) (st.env ++ List.range' (st.objs.length + 1) shapes.length) a = shapeAt st.objs st.env a := by
      intro a ha
      unfold shapeAt
      rw [getD_prefix hlater.pre a (has a ha), hlater.ext.shape]
      exact h.lt _ (hmem _ (List.mem_map_of_mem ha))
    refine ⟨_, k, as, shapes.length, 0, newOp_op _ _ _ _, rfl, hl.congr hsh, rfl, Or.inr (by simp [opObj]), ?_, has, ?_⟩
    · intro j hj
      refine ⟨st.objs.length + 1 + j, ?_, ?_, newOp_isResult st.objs k deps shapes j hj⟩
      · show (List.range' (st.objs.length + 1) shapes.length)[0 + j]? = _
        rw [Nat.zero_add, List.getElem?_range' hj]
        simp
      rw [List.getElem?_append_right (by omega), show st.env.length + j - st.env.length = j by omega, List.getElem?_range' hj]
      simp
    · have e : as.map ((st.env ++ List.range' (st.objs.length + 1) shapes.length).getD · 0) = as.map (st.env.getD · 0) :=
        List.map_congr_left fun a ha => getD_prefix hlater.pre a (has a ha) 0
      rw [e]
      show List.Forall₂ _ deps _
      exact hdeps.imp fun d a hd => hd.1.mono hlater
  refine h.newOp k hk deps shapes _ ?_ ?_ ?_ ⟨List.nodup_range', by simp⟩ ?_ (Or.inl ?_) ?_ ?_ ?_ ?_ ?_ ?_
  · intro d hd
    obtain ⟨a, ha, h1⟩ : ∃ a ∈ as.map (st.env.getD · 0), ArgOk st.objs st.env d a ∧ objs0.Own d := by
      clear hopof hlater
      generalize as.map (st.env.getD · 0) = l at hdeps
      clear hmem
      induction hdeps with
      | nil => simp at hd
      | cons h1 _ ih =>
        rcases List.mem_cons.1 hd with rfl | hd
        · exact ⟨_, by simp, h1⟩
        · obtain ⟨a, ha, h2⟩ := ih hd
          exact ⟨a, by simp [ha], h2⟩
    exact ⟨h1.2, argOk_var h (hmem a ha) h1.1⟩
  · intro v hv
    obtain ⟨j, hj, rfl⟩ := List.mem_range'.1 hv
    exact ⟨j, hj, by omega⟩
  · intro n t ht
    obtain ⟨rfl, rfl⟩ : n = st.env.length ∧ t = s := by simpa using ht
    exact ⟨by simp [hcount], .op _ hopof⟩
  · intro x h1 h2
    exact ⟨_, _, List.mem_singleton_self _, h1, by simpa [hcount] using h2⟩
  · intro v hv
    obtain ⟨j, hj, rfl⟩ := List.mem_range'.1 hv
    refine ⟨_, _, st.env.length + j, List.mem_singleton_self _, hopof, by omega, by omega, ?_⟩
    rw [List.getElem?_append_right (by omega), show st.env.length + j - st.env.length = j by omega, List.getElem?_range' hj]
  · simp [hnot]
  · simp [hnot]
  · simp [hnot]
  · simp only [List.foldl_cons, List.foldl_nil]
    rw [hsh]
    congr 1
    apply List.ext_getElem?
    intro j
    rw [List.getElem?_map]
    by_cases hj : j < shapes.length
    · rw [List.getElem?_range' hj, List.getElem?_eq_getElem hj]
      simp only [Option.map_some, Option.some.injEq]
      rw [show st.objs.length + 1 + 1 * j = st.objs.length + 1 + j by omega, objects_eq (newOp_result st.objs k deps shapes j _ (List.getElem?_eq_getElem hj))]
      rfl
    · rw [List.getElem?_eq_none (by omega), List.getElem?_eq_none (by simp; omega)]
      rfl
  · simp [hnot]
  · intro n t ht
    obtain ⟨rfl, rfl⟩ : n = st.env.length ∧ t = s := by simpa using ht
    exact hnot.2.2.2.2

end Csdl.Prog
