import Verif.Proofs.Program4
/-
Methods that are executed while another one is (`with self.create_submodel(...)`): neither changes the objects of the other.
-/
namespace Csdl.Prog
open Csdl Csdl.Arith
variable {K F : Type} [Field K] [DecidableEq K]

theorem Ext.ofPrefix {a b : List (PObj K F)} (h : a <+: b) : Ext a b := by
  obtain ⟨t, rfl⟩ := h
  exact Ext.append _ _

theorem part_ext {f : Foreign K F} {L : List (Nat × Stmt K F)} {S : List (Name × Option (List Name))} {st st' : St K F} (h : Inv f L S st) {v o : Nat} {k : NKey}
    (ho : st.decomp.get? v = some o) (he : execPart st v o k = .ok st') : Ext st.objs st'.objs := by
  obtain ⟨hb, hve, p, es, hp, hkind, hop, _⟩ := h.decomp v o ho
  unfold execPart at he
  split at he
  · cases he
    exact Ext.refl _
  · split at he
    · cases he
    · rename_i src _
      cases he
      refine Ext.trans ?_ (Ext.append _ _)
      intro i q hq
      unfold addPart
      rw [List.getElem?_modify, hq]
      by_cases hi : o = i
      · subst hi
        rw [hp] at hq; cases hq
        refine ⟨{ p with obj := { p.obj with outs := p.obj.outs ++ [st.objs.length] }, op := some (.part (shapeOf st.objs v) (partsOf st.objs o ++ [(k, src)])) }, by simp, rfl, rfl, rfl, rfl, rfl, rfl, ?_⟩
        rw [partsOf_eq hp hop, shapeOf_objects _ _ (h.lt v hve)]
        exact .part _ _ _ hkind rfl (List.prefix_append _ _) hop rfl (List.prefix_append _ _)
      · exact ⟨q, by simp [hi], .refl q⟩

theorem assign_ext {f : Foreign K F} {L : List (Nat × Stmt K F)} {S : List (Name × Option (List Name))} {st st' : St K F} (h : Inv f L S st) {v x : Nat} {key : Key}
    (he : execAssign st v key x = .ok st') : Ext st.objs st'.objs := by
  unfold execAssign at he
  cases hcv : st.concat.get? v with
  | none => rw [hcv] at he; cases he
  | some cv =>
    obtain ⟨c, val⟩ := cv
    rw [hcv] at he
    simp only at he
    split at he
    · cases he
    · rename_i c' _
      cases he
      obtain ⟨p, es, a1, a2, a3, a4, a5, a6, a7, a8, a9⟩ := (h.concat v c val hcv).asm
      rcases a9 with ⟨b1, b2, b3⟩ | ⟨b1, b2, o, q, b3, b4, b5, b6, b7, b8, b9⟩
      · rw [b3, Option.isNone_none, if_pos rfl]
        unfold newAsm
        refine Ext.trans ?_ (Ext.append _ _)
        intro i r hr
        rw [List.getElem?_modify, hr]
        by_cases hi : v = i
        · subst hi
          rw [a1] at hr; cases hr
          exact ⟨{ p with obj := { p.obj with deps := [st.objs.length] } }, by simp, rfl, rfl, rfl, rfl, rfl, rfl, .defined a2 a3 b2 rfl rfl⟩
        · exact ⟨r, by simp [hi], .refl r⟩
      · have hno : c.deps.isNone = false := by
          cases hcd : c.deps with
          | none => rw [hcd] at b2; cases b2
          | some _ => rfl
        rw [hno, if_neg (by simp)]
        intro i r hr
        unfold growAsm
        rw [a1, Option.map_some, Option.getD_some, b3, List.headD_cons, List.getElem?_modify, hr]
        by_cases hi : o = i
        · subst hi
          rw [b5] at hr; cases hr
          refine ⟨addArg q x (shapeOf st.objs x, (c'.tgt.get? (nameOf st.objs x)).getD []), by simp, rfl, rfl, rfl, rfl, rfl, rfl, ?_⟩
          refine .asm c.shape val es (es ++ [(shapeOf st.objs x, (c'.tgt.get? (nameOf st.objs x)).getD [])]) b6 (List.prefix_append _ _) rfl b8 ?_ (List.prefix_append _ _)
          unfold addArg
          rw [b8]
        · exact ⟨r, by simp [hi], .refl r⟩

omit [DecidableEq K] in
theorem dedup_prefix : ∀ (args : List Nat) (objs : List (PObj K F)) (seen : List Nat), objs <+: (dedup objs seen args).1
  | [], _, _ => List.prefix_rfl
  | a :: as, objs, seen => by
    unfold dedup
    split
    · exact (List.prefix_append _ _).trans (dedup_prefix as _ _)
    · exact dedup_prefix as _ _

/-- a statement changes of older objects only what may change -/
theorem exec_ext {f : Foreign K F} {L : List (Nat × Stmt K F)} {S : List (Name × Option (List Name))} {st st' : St K F} (h : Inv f L S st) (s : Stmt K F) (he : exec st s = .ok st') : Ext st.objs st'.objs := by
  cases s with
  | input name shape =>
    simp only [Prog.exec] at he
    split at he
    · cases he
    · cases he
      exact Ext.append _ _
  | declare name shape ex =>
    simp only [Prog.exec] at he
    cases he
    exact Ext.append _ _
  | connect a b =>
    simp only [Prog.exec] at he
    split at he
    · cases he
    · split at he <;> (cases he; exact Ext.refl _)
  | index x key =>
    simp only [Prog.exec] at he
    split at he
    · rename_i hx
      unfold execIndex at he
      split at he
      · cases he
      · rename_i k hk
        have hxv := getD_mem hx
        unfold withDecomp at he
        cases hd : st.decomp.get? (st.env.getD x 0) with
        | some o =>
          rw [hd] at he
          exact part_ext h hd he
        | none =>
          rw [hd] at he
          exact (Ext.append _ _).trans (part_ext (h.decompose _ (List.mem_of_getElem? hxv) hd) (by rw [Dict.get?_set, if_pos rfl]) he)
    · cases he
  | output name shape val =>
    simp only [Prog.exec, execOutput] at he
    split at he
    · cases he
    · split at he
      · cases he
      · cases he
        exact Ext.append _ _
  | assign y key x =>
    simp only [Prog.exec] at he
    split at he
    · exact assign_ext h he
    · cases he
  | register name x =>
    simp only [Prog.exec] at he
    split at he
    · unfold execRegister at he
      split at he
      · cases he
      · split at he
        · cases he
        · split at he
          · cases he
          · split at he
            · cases he
            · cases he
              exact Ext.rename _ _ _
    · cases he
  | call g args outs =>
    simp only [Prog.exec] at he
    split at he
    · cases he
      exact Ext.ofPrefix ((dedup_prefix _ _ _).trans (List.prefix_append _ _))
    · cases he
  | expr i =>
    simp only [Prog.exec] at he
    split at he
    · cases hl : lower i with
      | error e => rw [hl] at he; cases he
      | ok r =>
        rw [hl] at he
        cases r with
        | none =>
          cases he
          exact Ext.refl _
        | some r =>
          simp only [execExpr, arithOp] at he
          split at he
          · cases he
            exact Ext.ofPrefix ((dedup_prefix _ _ _).trans (List.prefix_append _ _))
          · cases he
    · cases he

omit [Field K] [DecidableEq K] in
theorem add_ext {st st' : St K F} {name : Name} {pr : Option (List Name)} (he : execAdd st name pr = .ok st') : Ext st.objs st'.objs := by
  unfold execAdd at he
  split at he
  · cases he
  · split at he
    · cases he
    · cases he
      exact Ext.append _ _

theorem forall₂_imp_mem {α β : Type} {R R' : α → β → Prop} {l : List α} {l' : List β} (h : List.Forall₂ R l l') (hR : ∀ a ∈ l, ∀ b ∈ l', R a b → R' a b) : List.Forall₂ R' l l' := by
  induction h with
  | nil => exact .nil
  | cons h1 _ ih => exact .cons (hR _ (by simp) _ (by simp) h1) (ih fun a ha b hb => hR a (by simp [ha]) b (by simp [hb]))

theorem Good.frame {a a' : Nat → Prop} {L : List (Nat × Stmt K F)} {st st' : St K F} (hg : Grows st st') (hv : ∀ v ∈ st.env, v < st.objs.length)
    (hb : ∀ n s, (n, s) ∈ L → n ≤ st.env.length) (ha : ∀ j < st.objs.length, a j → a' j) {i : Nat} {p : PObj K F} (h : Good a L st i p) : Good a' L st' i p := by
  cases h with
  | input h1 h2 h3 h4 h5 h6 => exact .input h1 h2 h3 h4 (hg.inputs.subset h5) (hg.later.pre.subset h6)
  | declared h1 h2 h3 h4 h5 h6 => exact .declared h1 h2 h3 h4 (hg.declared.subset h5) (hg.later.pre.subset h6)
  | concat h1 h2 h3 h4 h5 h6 => exact .concat h1 h2 h3 h4 (hg.outputs.subset h5) (hg.later.pre.subset h6)
  | result o q h1 h2 h3 h4 h5 h7 h8 h9 =>
    obtain ⟨q', h11, g⟩ := hg.later.ext o q h7
    exact .result o q' h1 h2 h3 h4 (ha o (lt_of_some h7) h5) h11 (g.kind.trans h8) (g.outs.subset h9)
  | op h1 h2 h3 hn h4 =>
    refine .op h1 (fun d hd => ⟨ha d (h2 d hd).2.lt (h2 d hd).1, (h2 d hd).2.mono hg.later.ext⟩) (fun v hv => (h3 v hv).mono hg.later.ext) hn (h4.imp ?_ (Or.imp ?_ ?_))
    · intro h v hv'
      obtain ⟨n, s, x, hs, ho, h5, h6, h7⟩ := h v hv'
      exact ⟨n, s, x, hs, ho.mono hg.later hv (hb n s hs), h5, h6, getElem?_prefix hg.later.pre h7⟩
    · rintro ⟨d, hd, hc, h5⟩
      exact ⟨d, hg.later.pre.subset hd, hc.mono hg.later, ha _ hc.result.isVar.lt h5⟩
    · rintro ⟨k, v, h5, h6, h7, h8, h9⟩
      exact ⟨k, v, h5, h6, h7, hg.later.pre.subset h8, fun d hd => hg.later.pre.subset (h9 d hd)⟩
  | model h1 h2 h3 h4 => exact .model h1 h2 h3 ((hg.subs.map _).subset h4)

omit [Field K] [DecidableEq K] in
theorem Asm.frame {a a' : Nat → Prop} {L : List (Nat × Stmt K F)} {objs objs' : List (PObj K F)} {env : List Nat} {v : Nat} {c : Concat} {val : Val K} (h : Asm a L objs env v c val)
    (hext : Ext objs objs') (hv : ∀ v ∈ env, v < objs.length ∧ a v) (hz : ∀ n z key x, (n, Stmt.assign z key x) ∈ L → z < env.length ∧ x < env.length)
    (hsame : ∀ i p, objs[i]? = some p → a i → objs'[i]? = some p) (ha : ∀ j < objs.length, a j → a' j) : Asm a' L objs' env v c val := by
  obtain ⟨x, name, h1, h2⟩ := h.stmt
  refine ⟨⟨x, name, h1, h2⟩, ?_⟩
  obtain ⟨p, es, h3, h4, h5, h6, h7, h8, h9, h10, h11⟩ := h.asm
  refine ⟨p, es, hsame v p h3 (hv v (List.mem_of_getElem? h2)).2, h4, h5, h6, h7, ?_, h9, h10, ?_⟩
  · rw [List.forall₂_iff_get] at h8 ⊢
    refine ⟨h8.1, fun i hi hi' => ?_⟩
    obtain ⟨a1, a2⟩ := h8.2 i hi hi'
    refine ⟨a1.trans ?_, a2⟩
    obtain ⟨n, z, b1, _⟩ := assignsTo_mem.1 (List.get_mem (assignsTo env v L) ⟨i, hi⟩)
    unfold shapeAt
    rw [hext.shape]
    apply (hv _ _).1
    rw [List.getD_eq_getElem?_getD, List.getElem?_eq_getElem (hz _ _ _ _ b1).2]
    exact List.getElem_mem _
  · refine h11.imp id ?_
    rintro ⟨a1, a2, o, r, a3, a4, a5, a6⟩
    exact ⟨a1, a2, o, r, a3, ha o (lt_of_some a5) a4, hsame o r a5 a4, a6⟩

/-- Other methods have changed objects of theirs and created new ones. -/
theorem Inv.frame {f f' : Foreign K F} {L : List (Nat × Stmt K F)} {S : List (Name × Option (List Name))} {st : St K F} {objs' : List (PObj K F)} (h : Inv f L S st) (hext : Ext st.objs objs')
    (hsame : ∀ i p, st.objs[i]? = some p → f.Own i → objs'[i]? = some p) (hbase : ∀ i p, f' i = some p → objs'[i]? = some p)
    (hown : ∀ i, i < objs'.length → (f'.Own i ↔ f.Own i ∧ i < st.objs.length)) : Inv f' L S { st with objs := objs' } := by
  have hle := hext.length
  have hto : ∀ j < st.objs.length, f.Own j → f'.Own j := fun j hj ho => (hown j (Nat.lt_of_lt_of_le hj hle)).2 ⟨ho, hj⟩
  have hback : ∀ i p, objs'[i]? = some p → f'.Own i → f.Own i ∧ st.objs[i]? = some p := by
    intro i p hp ho
    obtain ⟨h1, h2⟩ := (hown i (lt_of_some hp)).1 ho
    refine ⟨h1, ?_⟩
    have := hsame i _ (List.getElem?_eq_getElem h2) h1
    rw [hp] at this
    cases this
    exact List.getElem?_eq_getElem h2
  have hlater : Later st.objs st.env objs' st.env := .objsOnly hext _
  have hg : Grows st { st with objs := objs' } := ⟨hlater, List.prefix_rfl, List.prefix_rfl, List.prefix_rfl, List.prefix_rfl⟩
  have hnum : ∀ n s, (n, s) ∈ L → n ≤ st.env.length := fun n s hs => Nat.le_trans (Nat.le_add_right _ _) (h.nums n s hs)
  have hobj : ∀ i, f.Own i → i < st.objs.length → objects objs' i = objects st.objs i := by
    intro i h1 h2
    rw [objects_eq (hsame i _ (List.getElem?_eq_getElem h2) h1), objects_eq (List.getElem?_eq_getElem h2)]
  have henv : ∀ v ∈ st.env, objects objs' v = objects st.objs v := fun v hv => hobj v (h.env v hv).1 (h.lt v hv)
  have hinfo : ∀ i, f.Own i → i < st.objs.length → infoOf objs' i = infoOf st.objs i := fun i h1 h2 => by
    unfold infoOf Objs.varInfo
    rw [hobj i h1 h2]
  have hrole : ∀ {i : Nat} {k : OKind} {r : Role}, (f.Own i ∧ ∃ p, st.objs[i]? = some p ∧ p.obj.kind = k ∧ p.obj.role = r) → f'.Own i ∧ ∃ p, objs'[i]? = some p ∧ p.obj.kind = k ∧ p.obj.role = r := by
    rintro i k r ⟨h1, p, h2, h3⟩
    exact ⟨hto i (lt_of_some h2) h1, p, hsame i p h2 h1, h3⟩
  constructor
  case base => exact hbase
  case good =>
    intro i p hp ho
    obtain ⟨h1, h2⟩ := hback i p hp ho
    exact (h.good i p h2 h1).frame hg h.lt hnum hto
  case autos =>
    intro i p hp ho
    obtain ⟨h1, h2⟩ := hback i p hp ho
    exact h.autos i p h2 h1
  case names =>
    intro i p hp ho
    obtain ⟨h1, h2⟩ := hback i p hp ho
    exact h.names i p h2 h1
  case env => exact fun v hv => ⟨hto v (h.lt v hv) (h.env v hv).1, (h.env v hv).2.mono hext⟩
  case nums => exact h.nums
  case cover => exact h.cover
  case stmts => exact fun n s hs => (h.stmts n s hs).mono hlater h.lt (hnum n s hs)
  case fresh => exact h.fresh
  case inputs =>
    refine forall₂_imp_mem h.inputs fun i hi x _ hx => ⟨hx.1, ?_, hx.2.2⟩
    have := h.inputRole i hi
    rw [hinfo i this.1 (lt_of_some this.2.choose_spec.1)]
    exact hx.2.1
  case declared =>
    refine forall₂_imp_mem h.declared fun i hi x _ hx => ⟨hx.1, ?_⟩
    have := h.declaredRole i hi
    rw [hinfo i this.1 (lt_of_some this.2.choose_spec.1)]
    exact hx.2
  case outputs =>
    refine forall₂_imp_mem h.outputs fun i hi x _ hx => ⟨hx.1, ?_, hx.2.2⟩
    have := h.outputRole i hi
    rw [hinfo i this.1 (lt_of_some this.2.choose_spec.1)]
    exact hx.2.1
  case inputRole => exact fun i hi => hrole (h.inputRole i hi)
  case declaredRole => exact fun i hi => hrole (h.declaredRole i hi)
  case outputRole => exact fun i hi => hrole (h.outputRole i hi)
  case inputsNodup => exact h.inputsNodup
  case outputsNodup => exact h.outputsNodup
  case shapes =>
    rw [← h.shapes]
    exact List.map_congr_left fun v hv => by rw [henv v hv]
  case connections => exact h.connections
  case subs =>
    refine h.subs.imp fun s x hx => ?_
    obtain ⟨h1, h2, p, h3, h4⟩ := hx
    exact ⟨h1, hto _ (lt_of_some h3) h2, p, hsame _ p h3 h2, h4⟩
  case subNames => exact h.subNames
  case decomp =>
    intro v o hv
    obtain ⟨h1, h2, p, es, h3, h4, h5, h6, h7, h8, h9⟩ := h.decomp v o hv
    refine ⟨hto o (lt_of_some h3) h1, h2, p, es, hsame o p h3 h1, h4, ?_⟩
    rw [henv v h2]
    refine ⟨h5, h6, h7.imp fun e w hw => ?_, h8, h9⟩
    obtain ⟨q, g1, g2, g3⟩ := hw
    obtain ⟨q', g4, g⟩ := hext w q g1
    exact ⟨q', g4, g.kind.trans g2, g.shape.trans g3⟩
  case parts =>
    intro i p sh es hp ho hpo
    obtain ⟨h1, h2⟩ := hback i p hp ho
    exact h.parts i p sh es h2 h1 hpo
  case concat => exact fun v c val hv => (h.concat v c val hv).frame hext (fun v hv => ⟨h.lt v hv, (h.env v hv).1⟩) (fun _ _ _ _ hs => h.assignLt hs) hsame hto
  case made => exact h.made
  case asms =>
    intro i p k hp ho hk ha
    obtain ⟨h1, h2⟩ := hback i p hp ho
    obtain ⟨v, c, val, q, g1, g2, g3, g4⟩ := h.asms i p k h2 h1 hk ha
    obtain ⟨x, _, _, g5⟩ := (h.concat v c val g2).stmt
    exact ⟨v, c, val, q, g1, g2, hsame v q g3 (h.env v (List.mem_of_getElem? g5)).1, g4⟩
  case targets => exact h.targets

/-- What is known of the models that were defined in `with` blocks of the method `b`, when the objects are `objs`; `A` are their objects. -/
inductive InlOk (objs : List (PObj K F)) : Body K F → Inl K F → (Nat → Prop) → Prop
  | done : InlOk objs .done .nil (fun _ => False)
  | stmt {s : Stmt K F} {rest : Body K F} {inl : Inl K F} {A : Nat → Prop} : InlOk objs rest inl A → InlOk objs (.stmt s rest) inl A
  | add {n : Name} {p : Option (List Name)} {sub rest : Body K F} {inl : Inl K F} {A : Nat → Prop} : InlOk objs rest inl A → InlOk objs (.add false n p sub rest) inl A
  | inline (f : Foreign K F) {n : Name} {p : Option (List Name)} {sub rest : Body K F} {st : St K F} {ms inl : Inl K F} {A1 A2 : Nat → Prop} :
      Inv f (sub.stmts 0) sub.added { st with objs := objs } → InlOk objs sub ms A1 → InlOk objs rest inl A2 →
      (∀ i, A1 i → ¬ f.Own i) → (∀ i, A2 i → ¬ f.Own i) → (∀ i, A1 i → ¬ A2 i) →
      InlOk objs (.add true n p sub rest) (.cons st ms inl) (fun i => (f.Own i ∧ i < objs.length) ∨ A1 i ∨ A2 i)

theorem InlOk.lt {objs : List (PObj K F)} {b : Body K F} {inl : Inl K F} {A : Nat → Prop} (h : InlOk objs b inl A) : ∀ i, A i → i < objs.length := by
  induction h with
  | done => exact fun _ h => h.elim
  | stmt _ ih => exact ih
  | add _ ih => exact ih
  | inline f _ _ _ _ _ _ ih1 ih2 =>
    rintro i (h | h | h)
    · exact h.2
    · exact ih1 i h
    · exact ih2 i h

open Classical in
/-- the objects of `objs` without those in `P` -/
noncomputable def Foreign.without (P : Nat → Prop) (objs : List (PObj K F)) : Foreign K F := fun i => if P i then none else objs[i]?

omit [Field K] [DecidableEq K] in
theorem Foreign.own_without {P : Nat → Prop} {objs : List (PObj K F)} {i : Nat} : (Foreign.without P objs).Own i ↔ P i ∨ objs.length ≤ i := by
  unfold Foreign.Own Foreign.without
  split
  · simp [*]
  · simp [*]

/-- The models of `with` blocks stay as they are when other methods continue. -/
theorem InlOk.frame {objs objs' : List (PObj K F)} {b : Body K F} {inl : Inl K F} {A : Nat → Prop} (h : InlOk objs b inl A) (hext : Ext objs objs') (hsame : ∀ i, A i → objs'[i]? = objs[i]?) :
    InlOk objs' b inl A := by
  induction h with
  | done => exact .done
  | stmt _ ih => exact .stmt (ih hsame)
  | add _ ih => exact .add (ih hsame)
  | @inline f n p sub rest st ms inl A1 A2 h1 h2 h3 h4 h5 h6 ih1 ih2 =>
    have hlen := hext.length
    have e : (fun i => (f.Own i ∧ i < objs.length) ∨ A1 i ∨ A2 i) = fun i => ((Foreign.without (fun i => f.Own i ∧ i < objs.length) objs').Own i ∧ i < objs'.length) ∨ A1 i ∨ A2 i := by
      funext i
      rw [Foreign.own_without]
      apply propext
      refine or_congr_left ?_
      constructor
      · exact fun h => ⟨Or.inl h, by omega⟩
      · rintro ⟨h | h, h'⟩
        · exact h
        · omega
    rw [e]
    have hno : ∀ (i : Nat), i < objs'.length → ¬ f.Own i → ¬ (Foreign.without (fun i => f.Own i ∧ i < objs.length) objs').Own i := by
      intro i hi hf
      rw [Foreign.own_without]
      rintro (h | h)
      · exact hf h.1
      · omega
    have hlt1 := h2.lt
    have hlt2 := h3.lt
    refine .inline _ ?_ (ih1 fun i hi => hsame i (Or.inr (Or.inl hi))) (ih2 fun i hi => hsame i (Or.inr (Or.inr hi))) (fun i hi => hno i (by have := hlt1 i hi; omega) (h4 i hi))
      (fun i hi => hno i (by have := hlt2 i hi; omega) (h5 i hi)) h6
    refine h1.frame (objs' := objs') hext ?_ ?_ ?_
    · intro i p hp ho
      rw [hsame i (Or.inl ⟨ho, lt_of_some hp⟩)]
      exact hp
    · intro i p hp
      unfold Foreign.without at hp
      split at hp
      · cases hp
      · exact hp
    · intro i hi
      rw [Foreign.own_without]
      constructor
      · rintro (h | h)
        · exact h
        · omega
      · exact Or.inl

open Classical in
/-- other methods have also created the objects in `A` -/
noncomputable def Foreign.plus (f : Foreign K F) (A : Nat → Prop) (objs : List (PObj K F)) : Foreign K F := fun i => if A i then objs[i]? else f i

omit [Field K] [DecidableEq K] in
theorem Foreign.own_plus {f : Foreign K F} {A : Nat → Prop} {objs : List (PObj K F)} (hA : ∀ i, A i → i < objs.length) {i : Nat} : (f.plus A objs).Own i ↔ f.Own i ∧ ¬ A i := by
  unfold Foreign.Own Foreign.plus
  split
  · rename_i h
    simp [h, hA i h]
  · simp [*]

omit [Field K] [DecidableEq K] in
theorem Foreign.plus_none (f : Foreign K F) (objs : List (PObj K F)) : f.plus (fun _ => False) objs = f := by
  funext i
  simp [Foreign.plus]

/-- The invariant holds after a method; the objects of the models defined in `with` blocks are among those that others created. -/
theorem Inv.runOwn : ∀ (b : Body K F) {f : Foreign K F} {L : List (Nat × Stmt K F)} {S : List (Name × Option (List Name))} {st st' : St K F} {inl : Inl K F}, Inv f L S st → runOwn st b = .ok (st', inl) →
    ∃ A, InlOk st'.objs b inl A ∧ (∀ i, A i → st.objs.length ≤ i) ∧ Ext st.objs st'.objs ∧ Inv (f.plus A st'.objs) (L ++ b.stmts st.env.length) (S ++ b.added) st'
  | .done, f, L, S, st, st', inl, h, he => by
    cases he
    refine ⟨_, .done, fun _ h => h.elim, Ext.refl _, ?_⟩
    rw [Foreign.plus_none]
    simpa [Body.stmts, Body.added, Body.subs] using h
  | .stmt s rest, f, L, S, st, st', inl, h, he => by
    rw [Prog.runOwn] at he
    cases h1 : Prog.exec st s with
    | error e => rw [h1] at he; cases he
    | ok st1 =>
      rw [h1] at he
      obtain ⟨h2, h3, _⟩ := h.exec s h1
      have hx := exec_ext h s h1
      obtain ⟨A, a1, a2, a3, a4⟩ := Inv.runOwn rest h2 he
      refine ⟨A, .stmt a1, fun i hi => Nat.le_trans hx.length (a2 i hi), hx.trans a3, ?_⟩
      rw [h3] at a4
      simpa [Body.stmts, Body.added, Body.subs] using a4
  | .add false name pr sub rest, f, L, S, st, st', inl, h, he => by
    rw [Prog.runOwn] at he
    cases h1 : execAdd st name pr with
    | error e => rw [h1] at he; cases he
    | ok st1 =>
      rw [h1] at he
      have hx := add_ext h1
      unfold execAdd at h1
      split at h1
      · cases h1
      · split at h1
        · cases h1
        · rename_i hb hn
          cases h1
          obtain ⟨A, a1, a2, a3, a4⟩ := Inv.runOwn rest (h.add name pr (by simpa using hb) hn) he
          refine ⟨A, .add a1, fun i hi => Nat.le_trans hx.length (a2 i hi), hx.trans a3, ?_⟩
          simpa [Body.stmts, Body.added, Body.subs] using a4
  | .add true name pr sub rest, f, L, S, st, st', inl, h, he => by
    rw [Prog.runOwn] at he
    cases h1 : Prog.runOwn { objs := st.objs } sub with
    | error e => rw [h1] at he; cases he
    | ok q =>
      obtain ⟨m, ms⟩ := q
      rw [h1] at he
      simp only at he
      cases h2 : execAdd { st with objs := m.objs } name pr with
      | error e => rw [h2] at he; cases he
      | ok st1 =>
        rw [h2] at he
        simp only at he
        cases h3 : Prog.runOwn st1 rest with
        | error e => rw [h3] at he; cases he
        | ok q =>
          obtain ⟨st2, r⟩ := q
          rw [h3] at he
          cases he
          obtain ⟨A1, a1, a2, a3, a4⟩ := Inv.runOwn sub (Inv.start st.objs) h1
          simp only [List.nil_append, List.length_nil] at a2 a3 a4
          have hbase1 : ∀ (i : Nat) (p : PObj K F), st.objs[i]? = some p → m.objs[i]? = some p := by
            intro i p hp
            refine a4.base i p ?_
            unfold Foreign.plus
            rw [if_neg (fun hA => by have := a2 i hA; have := lt_of_some hp; omega)]
            exact hp
          have hlen1 := a3.length
          -- the objects created in the block
          have hfr : Inv (f.plus (fun i => st.objs.length ≤ i ∧ i < m.objs.length) m.objs) L S { st with objs := m.objs } := by
            refine h.frame a3 (fun i p hp _ => hbase1 i p hp) ?_ ?_
            · intro i p hp
              unfold Foreign.plus at hp
              split at hp
              · exact hp
              · exact hbase1 i p (h.base i p hp)
            · intro i hi
              rw [Foreign.own_plus (fun i h => h.2)]
              refine and_congr_right fun _ => ?_
              omega
          have hx := add_ext h2
          have hadd : Inv (f.plus (fun i => st.objs.length ≤ i ∧ i < m.objs.length) m.objs) L (S ++ [(name, pr)]) st1 ∧ st1.env = st.env := by
            unfold execAdd at h2
            split at h2
            · cases h2
            · split at h2
              · cases h2
              · rename_i hb hn
                cases h2
                exact ⟨hfr.add name pr (by simpa using hb) hn, rfl⟩
          obtain ⟨A2, c1, c2, c3, c4⟩ := Inv.runOwn rest hadd.1 h3
          have hx2 : Ext m.objs st'.objs := hx.trans c3
          have hlen2 := hx.length
          have hlen3 := c3.length
          simp only at hlen2
          have hsame : ∀ i : Nat, st.objs.length ≤ i → i < m.objs.length → st'.objs[i]? = m.objs[i]? := by
            intro i hi1 hi2
            rw [List.getElem?_eq_getElem hi2]
            refine c4.base i _ ?_
            unfold Foreign.plus
            rw [if_neg (fun hA => by have := c2 i hA; omega), if_pos ⟨hi1, hi2⟩]
            exact List.getElem?_eq_getElem hi2
          have hfor : f.plus (fun i => (st.objs.length ≤ i ∧ i < m.objs.length) ∨ A2 i) st'.objs = (f.plus (fun i => st.objs.length ≤ i ∧ i < m.objs.length) m.objs).plus A2 st'.objs := by
            funext i
            unfold Foreign.plus
            by_cases hA : A2 i
            · simp [hA]
            · by_cases hi : st.objs.length ≤ i ∧ i < m.objs.length
              · simp only [hi, hA, and_self, or_false, if_true, if_false]
                exact hsame i hi.1 hi.2
              · simp [hi, hA]
          have hsub : Inv (Foreign.without (fun i => (st.objs.length ≤ i ∧ i < m.objs.length) ∧ ¬ A1 i) st'.objs) (sub.stmts 0) sub.added { m with objs := st'.objs } := by
            have hlt1 := a1.lt
            have hO : ∀ i, ((Foreign.of st.objs).plus A1 m.objs).Own i ↔ st.objs.length ≤ i ∧ ¬ A1 i := fun i => by rw [Foreign.own_plus hlt1, Foreign.own_of]
            refine a4.frame hx2 ?_ ?_ ?_
            · intro i p hp ho
              rw [hsame i ((hO i).1 ho).1 (lt_of_some hp)]
              exact hp
            · intro i p hp
              unfold Foreign.without at hp
              split at hp
              · cases hp
              · exact hp
            · intro i hi
              rw [Foreign.own_without, hO]
              constructor
              · rintro (h | h)
                · exact ⟨⟨h.1.1, h.2⟩, h.1.2⟩
                · omega
              · rintro ⟨⟨h1, h2⟩, h3⟩
                exact Or.inl ⟨⟨h1, h3⟩, h2⟩
          have hlt1 := a1.lt
          have hlt2 := c1.lt
          have hio := InlOk.inline (n := name) (p := pr) _ hsub (a1.frame hx2 fun i hi => hsame i (a2 i hi) (hlt1 i hi)) c1
            (fun i hi => by
              rw [Foreign.own_without]
              rintro (h | h)
              · exact h.2 hi
              · have := hlt1 i hi
                omega)
            (fun i hi => by
              rw [Foreign.own_without]
              have := c2 i hi
              rintro (h | h)
              · omega
              · have := hlt2 i hi
                omega)
            (fun i hi hi' => by
              have := c2 i hi'
              have := hlt1 i hi
              omega)
          have hset : (fun i => ((Foreign.without (fun i => (st.objs.length ≤ i ∧ i < m.objs.length) ∧ ¬ A1 i) st'.objs).Own i ∧ i < st'.objs.length) ∨ A1 i ∨ A2 i) =
              fun i => (st.objs.length ≤ i ∧ i < m.objs.length) ∨ A2 i := by
            funext i
            apply propext
            rw [Foreign.own_without]
            by_cases hi1 : A1 i
            · have h5 := a2 i hi1
              have h6 := hlt1 i hi1
              simp only [hi1, not_true, and_false, false_or, true_or, or_true, true_iff]
              exact Or.inl ⟨h5, h6⟩
            · simp only [hi1, not_false_eq_true, and_true, false_or]
              refine or_congr_left ?_
              omega
          rw [hset] at hio
          refine ⟨_, hio, ?_, a3.trans hx2, ?_⟩
          · rintro i (hi | hi)
            · exact hi.1
            · have := c2 i hi
              omega
          · rw [hfor]
            rw [hadd.2] at c4
            simpa [Body.stmts, Body.added, Body.subs] using c4

end Csdl.Prog
