import Verif.Spec.Inside
import Verif.Proofs.Depends
import Verif.Props.MergedSizes
import Verif.Props.ProgramParts
import Verif.Props.Concat
import Verif.Props.DefaultsSame
/-
For C114.
-/
namespace Csdl.Prog
open Csdl Csdl.Arith Csdl.Elem
variable {K F : Type} [Field K] [DecidableEq K]

theorem tgt_length {shape shp : Shape} {key : Key} {idx : List Int} (h : tgtIndices shape key = .ok (idx, shp)) : idx.length = shp.size := by
  cases key with
  | tuple l =>
    obtain ⟨h1, nk, ls, src, h2, h3, h4, rfl, rfl⟩ := tgt_tuple h
    obtain ⟨sel, g1, g2, _, g4, g5, g6, g7, g8⟩ := src_facts h4
    rw [h3] at g7; cases g7
    simpa using g4
  | slice a b s =>
    unfold tgtIndices at h
    cases shape with
    | nil => cases h
    | cons n r =>
      simp only at h
      cases hs : sliceToList a b s n with
      | error e => rw [hs] at h; cases h
      | ok l => rw [hs] at h; cases h; simp [Shape.size]
  | int k => unfold tgtIndices at h; cases h; simp [Shape.size]
  | other => cases h

/-- the position of an element of an assigned variable is inside of it -/
theorem unravel_valid {shp : Shape} {j : Nat} (h : j < shp.size) : ValidIdx shp (unravel shp j) := by
  obtain ⟨idx, h1, rfl⟩ := C21_ravel_surjective shp j h
  rw [unravel_ravel _ _ h1]
  exact h1

theorem shape_output {b : Body K F} {n : Nat} {name : Name} {s : Shape} {v : Val K} (h : b.Has n (.output name s v)) : b.shapes.getD n [] = s := by
  obtain ⟨_, _, _, _, h1⟩ := shape_step h
  exact h1 _ rfl

theorem shape_call {b : Body K F} {n j : Nat} {f : F} {args : List Nat} {outs : List Shape} (h : b.Has n (.call f args outs)) (hj : j < outs.length) : b.shapes.getD (n + j) [] = outs.getD j [] := by
  obtain ⟨L1, L2, hL, hn, _⟩ := shape_step h
  have hL' : b.stmts 0 = (L1 ++ [(n, .call f args outs)]) ++ L2 := by rw [hL]; simp
  have e : shapesOf (L1 ++ [(n, .call f args outs)]) = shapesOf L1 ++ outs := by simp [shapesOf, stepShapes]
  have hlen := shapes_length (L1 ++ [(n, .call f args outs)])
  rw [e] at hlen
  simp only [List.length_append, shapes_length] at hlen
  rw [← shape_later hL' (by omega), e, List.getD_eq_getElem?_getD, List.getElem?_append_right (by rw [shapes_length]; omega), shapes_length, hn]
  simp

/-- an assigned variable has the shape of the part of the output -/
theorem shape_assigned {b : Body K F} (hm : MethodOk b) {y x : Nat} {name : Name} {shape : Shape} {val : Val K} {key : Key} (ho : b.Has y (.output name shape val)) (h : b.Assigned y key x) {idx : List Int} {shp : Shape}
    (ht : tgtIndices shape key = .ok (idx, shp)) : shp = b.shapes.getD x [] := by
  obtain ⟨n, z, hz, ha⟩ := h
  obtain ⟨L1, L2, hL⟩ := List.append_of_mem hz
  obtain ⟨h1, h2, y', name', shape', val', idx', h3, h4, h5, _⟩ := hm.stmts _ _ _ hL
  have ho' : b.Has y' (.output name' shape' val') := by
    unfold Body.Has
    rw [hL]
    exact List.mem_append_left _ h3
  have ha' : Alias (b.stmts 0) z y' := by
    rw [hL]
    refine alias_mono (fun p u k hp => ?_) h4
    obtain ⟨A, B, hAB⟩ := List.append_of_mem hp
    have hk := hm.stmts A (p, .index u k) (B ++ (n, .assign z key x) :: L2) (by rw [hL, hAB]; simp)
    have := hk.1
    rw [hAB, numVars_append]
    omega
  have e : shape' = shape := by
    rw [← shape_output ho, ← shape_output ho', ← shape_alias hm ha, ← shape_alias hm ha']
  subst e
  rw [ht] at h5
  cases h5
  have hL' : b.stmts 0 = L1 ++ ((n, .assign z key x) :: L2) := hL
  exact shape_later hL' h2

/-- joined variables have the same shape -/
theorem same_shapes_of {b : Body K F} (hv : ValidProgram b) (h : JoinedShapesEqual b) {q r : List Name × Nat} (he : Relation.EqvGen (Same b) q r) : ∀ c c', BAt b q.1 c → BAt b r.1 c' → c.shapes.getD q.2 [] = c'.shapes.getD r.2 [] := by
  have key : ((∃ c, BAt b q.1 c) ↔ ∃ c, BAt b r.1 c) ∧ ∀ c c', BAt b q.1 c → BAt b r.1 c' → c.shapes.getD q.2 [] = c'.shapes.getD r.2 [] := by
    induction he with
    | rel q r hs =>
      refine ⟨?_, h q r hs⟩
      cases hs with
      | name p h1 h2 =>
        obtain ⟨c, _, _, _, k1, _⟩ := h1
        obtain ⟨c', _, _, _, k2, _⟩ := h2
        exact ⟨fun _ => ⟨_, k2⟩, fun _ => ⟨_, k1⟩⟩
      | connection path b' s t p q hb hc d1 d2 h1 h2 =>
        obtain ⟨c, _, _, _, k1, _⟩ := h1
        obtain ⟨c', _, _, _, k2, _⟩ := h2
        exact ⟨fun _ => ⟨_, k2⟩, fun _ => ⟨_, k1⟩⟩
      | «alias» b' hb _ _ _ => exact Iff.rfl
    | refl q =>
      refine ⟨Iff.rfl, fun c c' hc hc' => ?_⟩
      rw [hv.batOne hc hc']
    | symm _ _ _ ih => exact ⟨ih.1.symm, fun c c' hc hc' => (ih.2 c' c hc' hc).symm⟩
    | trans q m r _ _ ih1 ih2 =>
      refine ⟨ih1.1.trans ih2.1, fun c c' hc hc' => ?_⟩
      obtain ⟨d, hd⟩ := ih1.1.1 ⟨c, hc⟩
      exact (ih1.2 c d hc hd).trans (ih2.2 d c' hd hc')
  exact key.2

theorem meaning_inside (P : Power K) (i : Instr K) {v w : List (Val K)} {j : List Nat} (h : ∀ x ∈ i.first :: i.others, v.getD x (fun _ => 0) j = w.getD x (fun _ => 0) j) : i.meaning P v j = i.meaning P w j := by
  cases i <;> simp only [Instr.first, Instr.others, List.mem_cons, List.not_mem_nil, or_false, forall_eq_or_imp, forall_eq] at h <;> simp only [Instr.meaning, h]

theorem part_inside {shape : Shape} {key : Key} {e : NKey × List Nat} (h : keyPart shape key = .ok e) {a a' : Val K} (ha : AgreeInside shape a a') : AgreeInside (partShape shape key) (part shape key a) (part shape key a') := by
  obtain ⟨hk, hs⟩ := keyPart_key h
  obtain ⟨sel, h1, h2, _, h4, h5, h6, h7, h8⟩ := src_facts hs
  have hp : partShape shape key = sel.map List.length := by
    unfold partShape
    rw [hk]
    exact h2
  intro j hj
  rw [hp] at hj
  obtain ⟨g1, g2⟩ := h5 j hj
  unfold part
  rw [h]
  simp only [gather, h2, List.getD_eq_getElem?_getD, g2, Option.getD_some]
  rw [unravel_ravel _ _ g1]
  exact ha _ g1

/-- two solutions agree on the elements of all variables that matter if they agree on the elements of those that must be given -/
theorem Solution.inside {b : Body K F} {objs : List (PObj K F)} {root : OModel} (hv : ValidProgram b) (hr : runProgram b = .ok (objs, root)) (hn : objs.length ≤ 63 ^ 4) (hj : JoinedShapesEqual b) {P : Power K} {den den' : F → List (Val K) → Nat → Val K}
    (hd : CallsInside b den den') {ρ ρ' : List Name → Nat → Val K} (h : Solution P den b ρ) (h' : Solution P den' b ρ')
    (hg : ∀ path c y, BAt b path c → GivenVar b path y → AgreeInside (c.shapes.getD y []) (ρ path y) (ρ' path y)) (z : List Name × Nat) (hz : ∃ c, BAt b z.1 c ∧ c.Live z.2) :
    ∀ c, BAt b z.1 c → AgreeInside (c.shapes.getD z.2 []) (ρ z.1 z.2) (ρ' z.1 z.2) := by
  obtain ⟨Ls, hh, _⟩ := runFrom_hier hr (all := objs) List.prefix_rfl
  have u : Setup objs b root Ls := ⟨hh, hv.names, runFrom_closed (by simp [Closed]) hr, hn⟩
  refine depends_induction hv hr (p := fun z => ∀ c, BAt b z.1 c → AgreeInside (c.shapes.getD z.2 []) (ρ z.1 z.2) (ρ' z.1 z.2)) ?_ z hz
  rintro ⟨path, x⟩ ⟨c0, hc0, hl⟩ ih c hc
  by_cases hgiv : GivenVar b path x
  · exact hg path c x hc hgiv
  have : ∃ path' b' n s y, BAt b path' b' ∧ b'.Has n s ∧ s.Computes ∧ n ≤ y ∧ y < n + s.count ∧ b'.Live y ∧ Relation.EqvGen (Same b) (path, x) (path', y) := by
    by_contra hcon
    exact hgiv ⟨⟨c0, hc0, hl⟩, fun path' b' n s y h1 h2 h3 h4 h5 h6 h7 => hcon ⟨path', b', n, s, y, h1, h2, h3, h4, h5, h6, h7⟩⟩
  obtain ⟨path', d, n, s, y, hb, hs, hcomp, h1, h2, hl', he⟩ := this
  rw [h.same u he, h'.same u he, same_shapes_of hv hj he c d hc hb]
  dsimp only
  have hm := hv.methods _ _ hb
  have hop : ∀ a, Feeds b (path', a) (path', y) → d.Live a → AgreeInside (d.shapes.getD a []) (ρ path' a) (ρ' path' a) := fun a hf hla =>
    ih (path', a) ⟨d, hb, hla⟩ ⟨_, hf, he.symm⟩ d hb
  have hope : ∀ a ∈ s.operands, AgreeInside (d.shapes.getD a []) (ρ path' a) (ρ' path' a) := fun a ha => hop a (Or.inl ⟨d, n, s, rfl, hb, hs, hcomp, h1, h2, hl', ha⟩) (.operand hl' hs h1 h2 ha)
  cases s with
  | expr i =>
    obtain rfl : y = n := by simp [Stmt.count] at h2; omega
    intro j hj
    rw [h.expr path' d hb y i hs hl', h'.expr path' d hb y i hs hl']
    refine meaning_inside P i fun a ha => ?_
    have hlt := operands_before (hv.methods _ _ hb) hs (x := a) ha
    simp only [List.getD_eq_getElem?_getD, List.getElem?_map, List.getElem?_range hlt, Option.map_some, Option.getD_some]
    refine hope a ha j ?_
    rw [shape_expr hm hs a ha]
    exact hj
  | call f args outs =>
    obtain ⟨j, rfl⟩ := Nat.exists_eq_add_of_le h1
    have hj : j < outs.length := by simpa [Stmt.count] using h2
    rw [h.call path' d hb n f args outs hs j hj hl', h'.call path' d hb n f args outs hs j hj hl', shape_call hs hj]
    exact hd path' d n f args outs hb hs _ _ (fun a ha => hope a ha) j hj
  | index v key =>
    obtain rfl : y = n := by simp [Stmt.count] at h2; omega
    rw [h.index path' d hb y v key hs hl', h'.index path' d hb y v key hs hl', shape_part hm hs]
    obtain ⟨L1, L2, hL⟩ := List.append_of_mem hs
    obtain ⟨k1, e, k2⟩ := hm.stmts _ _ _ hL
    rw [shape_later hL k1] at k2
    exact part_inside k2 (hope v (by simp [Stmt.operands]))
  | output name shape val =>
    obtain rfl : y = n := by simp [Stmt.count] at h2; omega
    obtain ⟨k1, k2⟩ := h.output path' d hb y name shape val hs
    obtain ⟨k1', k2'⟩ := h'.output path' d hb y name shape val hs
    rw [shape_output hs]
    intro i _
    by_cases hi : ∀ key x idx shp, d.Assigned y key x → tgtIndices shape key = .ok (idx, shp) → (ravel shape i : Int) ∉ idx
    · rw [k2 i hi, k2' i hi]
    · push_neg at hi
      obtain ⟨key, a, idx, shp, g1, g2, g3⟩ := hi
      obtain ⟨j, hj⟩ := List.mem_iff_getElem?.1 g3
      rw [k1 key a idx shp g1 g2 i j hj, k1' key a idx shp g1 g2 i j hj]
      refine hop a (Or.inr ⟨d, name, shape, val, key, rfl, hb, hs, g1⟩) (by obtain ⟨m, w, g, _⟩ := g1; exact .assigned g) _ ?_
      rw [← shape_assigned hm hs g1 g2]
      refine unravel_valid ?_
      rw [← tgt_length g2]
      exact (List.getElem?_eq_some_iff.1 hj).1
  | _ => exact hcomp.elim

end Csdl.Prog
