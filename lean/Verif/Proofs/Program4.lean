import Verif.Proofs.ProgramAssign
/-
Every statement preserves the invariant; a `define` method as a whole.
-/
namespace Csdl.Prog
open Csdl Csdl.Arith
variable {K F : Type}

theorem getElem?_rename (objs : List (PObj K F)) (o : Nat) (nm : Name) (i : Nat) :
    (rename objs o nm)[i]? = if o = i then objs[i]?.map (fun p => p.named nm) else objs[i]? := by
  unfold rename
  rw [List.getElem?_modify]
  split <;> simp [PObj.named]

theorem rename_other {objs : List (PObj K F)} {o : Nat} {nm : Name} {i : Nat} (h : i ≠ o) : (rename objs o nm)[i]? = objs[i]? := by
  rw [getElem?_rename, if_neg (fun e => h e.symm)]

theorem objects_rename_other {objs : List (PObj K F)} {o : Nat} {nm : Name} {i : Nat} (h : i ≠ o) : objects (rename objs o nm) i = objects objs i := by
  unfold objects
  rw [rename_other h]

theorem objects_rename_shape {objs : List (PObj K F)} {o : Nat} {nm : Name} {i : Nat} : (objects (rename objs o nm) i).shape = (objects objs i).shape := by
  unfold objects
  rw [getElem?_rename]
  split
  · cases objs[i]? <;> rfl
  · rfl

theorem rename_role {objs : List (PObj K F)} {o : Nat} {nm : Name} {i : Nat} {k : OKind} {r : Role} (h : ∃ p, objs[i]? = some p ∧ p.obj.kind = k ∧ p.obj.role = r) :
    ∃ p, (rename objs o nm)[i]? = some p ∧ p.obj.kind = k ∧ p.obj.role = r := by
  obtain ⟨p, h1, h2⟩ := h
  rw [getElem?_rename, h1]
  split
  · exact ⟨_, rfl, h2⟩
  · exact ⟨_, rfl, h2⟩

variable [Field K] [DecidableEq K]

omit [DecidableEq K] in
theorem operands_eq (i : Instr K) : operands i = i.first :: i.others := by cases i <;> rfl

theorem lower_args {i : Instr K} {k : OpKind K} {as : List Nat} (h : lower i = .ok (some (k, as))) : as = i.first :: i.others := by
  cases i with
  | divc x c =>
    simp only [lower] at h
    cases hc : recip c with
    | error e => rw [hc] at h; cases h
    | ok r => rw [hc] at h; cases h; rfl
  | pos x => cases h
  | _ => cases h; rfl

theorem lower_none {i : Instr K} (h : lower i = .ok none) : ∃ c, i = .pos c := by
  cases i with
  | pos x => exact ⟨x, rfl⟩
  | divc x c =>
    simp only [lower] at h
    cases hc : recip c with
    | error e => rw [hc] at h; cases h
    | ok r => rw [hc] at h; cases h
  | _ => cases h

theorem Inv.register {objs0 : Foreign K F} {L : List (Nat × Stmt K F)} {S : List (Name × Option (List Name))} {st : St K F} (h : Inv objs0 L S st) (name : Name) (x o : Nat)
    (hx : st.env[x]? = some o) (hb : checkBannedChars name = true) (hout : isOutput st.objs o = true) (hno : o ∉ st.outputs) :
    Inv objs0 (L ++ [(st.env.length, .register name x)]) S { st with objs := rename st.objs o name, outputs := st.outputs ++ [o] } := by
  have hoe := List.mem_of_getElem? hx
  have hbo := (h.env o hoe).1
  obtain ⟨p0, hp0, hk0, hr0⟩ : ∃ p, st.objs[o]? = some p ∧ p.obj.kind = .var ∧ p.obj.role = .output := by
    unfold isOutput at hout
    cases hp : st.objs[o]? with
    | none => rw [hp] at hout; cases hout
    | some p => rw [hp] at hout; exact ⟨p, rfl, by simpa using hout⟩
  have hext : Ext st.objs (rename st.objs o name) := Ext.rename _ _ _
  have hlater : Later st.objs st.env (rename st.objs o name) st.env := .objsOnly hext _
  have hg : Grows st { st with objs := rename st.objs o name, outputs := st.outputs ++ [o] } := ⟨hlater, List.prefix_rfl, List.prefix_rfl, List.prefix_append _ _, List.prefix_rfl⟩
  have hnum : ∀ n s, (n, s) ∈ L → n ≤ st.env.length := fun n s hs => Nat.le_trans (Nat.le_add_right _ _) (h.nums n s hs)
  have hnamed : ∀ i p, (rename st.objs o name)[i]? = some p → ∃ q nm, st.objs[i]? = some q ∧ p = q.named nm ∧ (i ≠ o → p = q) := by
    intro i p hp
    rw [getElem?_rename] at hp
    split at hp
    · rename_i he
      obtain ⟨q, h1, rfl⟩ := Option.map_eq_some_iff.1 hp
      exact ⟨q, name, h1, rfl, fun hn => absurd he.symm hn⟩
    · exact ⟨p, p.obj.name, hp, rfl, fun _ => rfl⟩
  have hrole : ∀ i r, (∃ p, st.objs[i]? = some p ∧ p.obj.kind = .var ∧ p.obj.role = r) → r ≠ .output → i ≠ o := by
    rintro i r ⟨p, h1, h2, h3⟩ hr rfl
    rw [hp0] at h1; cases h1
    exact hr (h3.symm.trans hr0)
  have hinfo : ∀ i, i ≠ o → infoOf (rename st.objs o name) i = infoOf st.objs i := fun i hi => by
    unfold infoOf Objs.varInfo
    rw [objects_rename_other hi]
  constructor
  case base =>
    intro i p hi
    have : i ≠ o := by
      rintro rfl
      rw [Foreign.Own, hi] at hbo
      cases hbo
    simp only
    rw [rename_other this]
    exact h.base i p hi
  case good =>
    intro i p hp hb
    obtain ⟨q, nm, h1, rfl, _⟩ := hnamed i p hp
    exact (h.good i q h1 hb).mono hg h.lt (fun _ hx => List.mem_append_left _ hx) hnum nm
  case autos =>
    intro i p hp hb
    obtain ⟨q, nm, h1, rfl, _⟩ := hnamed i p hp
    exact h.autos i q h1 hb
  case names =>
    intro i p hp hb
    obtain ⟨q, nm, h1, h2, h3⟩ := hnamed i p hp
    by_cases hi : i = o
    · exact Or.inr (Or.inl (by simp [hi]))
    · rw [h3 hi]
      exact (h.names i q h1 hb).imp id (Or.imp (List.mem_append_left _ ·) id)
  case env => exact fun v hv => ⟨(h.env v hv).1, (h.env v hv).2.mono hext⟩
  case nums =>
    intro n s hs
    rcases List.mem_append.1 hs with hs | hs
    · exact h.nums n s hs
    · obtain ⟨rfl, rfl⟩ : n = st.env.length ∧ s = .register name x := by simpa using hs
      simp [Stmt.count]
  case cover =>
    intro y hy
    obtain ⟨n, s, h1, h2⟩ := h.cover y hy
    exact ⟨n, s, List.mem_append_left _ h1, h2⟩
  case stmts =>
    intro n s hs
    rcases List.mem_append.1 hs with hs | hs
    · exact (h.stmts n s hs).mono hlater h.lt (hnum n s hs)
    · obtain ⟨rfl, rfl⟩ : n = st.env.length ∧ s = .register name x := by simpa using hs
      exact .register _ _
  case fresh =>
    intro n s hs
    rcases List.mem_append.1 hs with hs | hs
    · exact h.fresh n s hs
    · obtain ⟨rfl, rfl⟩ : n = st.env.length ∧ s = .register name x := by simpa using hs
      exact Or.inr fun y o h1 h2 => absurd h1 (by simpa [Stmt.count] using h2)
  case inputs =>
    simp only [List.filterMap_append, List.filterMap_cons, List.filterMap_nil, inputOf, List.append_nil]
    have := h.inputs
    have hr : ∀ i ∈ st.inputs, i ≠ o := fun i hi => hrole i _ (h.inputRole i hi).2 (by decide)
    revert hr this
    generalize L.filterMap inputOf = l'
    generalize st.inputs = l
    intro this hr
    induction this with
    | nil => exact .nil
    | cons h1 _ ih => exact .cons ⟨h1.1, (hinfo _ (hr _ (by simp))).trans h1.2.1, h1.2.2⟩ (ih fun i hi => hr i (by simp [hi]))
  case declared =>
    simp only [List.filterMap_append, List.filterMap_cons, List.filterMap_nil, declaredOf, List.append_nil]
    have := h.declared
    have hr : ∀ i ∈ st.declared, i ≠ o := fun i hi => hrole i _ (h.declaredRole i hi).2 (by decide)
    revert hr this
    generalize L.filterMap declaredOf = l'
    generalize st.declared = l
    intro this hr
    induction this with
    | nil => exact .nil
    | cons h1 _ ih => exact .cons ⟨h1.1, (hinfo _ (hr _ (by simp))).trans h1.2⟩ (ih fun i hi => hr i (by simp [hi]))
  case outputs =>
    simp only [List.filterMap_append, List.filterMap_cons, List.filterMap_nil, outputOf]
    refine List.rel_append ?_ (.cons ⟨hx, ?_, hb⟩ .nil)
    · have := h.outputs
      have hr : ∀ i ∈ st.outputs, i ≠ o := fun i hi e => hno (e ▸ hi)
      revert hr this
      generalize L.filterMap outputOf = l'
      generalize st.outputs = l
      intro this hr
      induction this with
      | nil => exact .nil
      | cons h1 _ ih => exact .cons ⟨h1.1, (by rw [hinfo _ (hr _ (by simp))]; exact h1.2.1), h1.2.2⟩ (ih fun i hi => hr i (by simp [hi]))
    · have : (rename st.objs o name)[o]? = some (p0.named name) := by rw [getElem?_rename, if_pos rfl, hp0]; rfl
      unfold infoOf Objs.varInfo
      rw [objects_eq this]; rfl
  case inputRole => exact fun i hi => ⟨(h.inputRole i hi).1, rename_role (h.inputRole i hi).2⟩
  case declaredRole => exact fun i hi => ⟨(h.declaredRole i hi).1, rename_role (h.declaredRole i hi).2⟩
  case outputRole =>
    intro i hi
    rcases List.mem_append.1 hi with hi | hi
    · exact ⟨(h.outputRole i hi).1, rename_role (h.outputRole i hi).2⟩
    · obtain rfl : i = o := by simpa using hi
      exact ⟨hbo, rename_role ⟨p0, hp0, hk0, hr0⟩⟩
  case inputsNodup => exact h.inputsNodup
  case outputsNodup =>
    rw [List.nodup_append]
    refine ⟨h.outputsNodup, by simp, ?_⟩
    rintro a ha b hb rfl
    obtain rfl : a = o := by simpa using hb
    exact hno ha
  case shapes =>
    rw [shapesOf, List.foldl_append]
    refine Eq.trans ?_ h.shapes
    exact List.map_congr_left fun v _ => objects_rename_shape
  case connections =>
    rw [List.foldl_append, ← h.connections]
    rfl
  case subs =>
    refine h.subs.imp fun s y hy => ⟨hy.1, hy.2.1, ?_⟩
    obtain ⟨p, h1, h2, h3⟩ := hy.2.2
    refine ⟨p, ?_, h2, h3⟩
    have : s.1 ≠ o := by
      rintro e
      rw [e, hp0] at h1; cases h1
      rw [hk0] at h2; cases h2
    exact (rename_other this).trans h1
  case subNames => exact h.subNames
  case decomp =>
    intro v q hv
    obtain ⟨h1, h2, p, es, h3, h4, h5, h6, h7, h8⟩ := h.decomp v q hv
    have : q ≠ o := by
      rintro rfl
      rw [hp0] at h3; cases h3
      rw [hk0] at h4; cases h4
    refine ⟨h1, h2, p, es, (rename_other this).trans h3, h4, ?_⟩
    simp only [objects_rename_shape]
    refine ⟨h5, h6, h7.imp fun e w hw => ?_, h8⟩
    obtain ⟨r, h9, h10, h11⟩ := hw
    obtain ⟨r', h12, g⟩ := hext w r h9
    exact ⟨r', h12, g.kind.trans h10, g.shape.trans h11⟩
  case parts =>
    intro i p sh es hp hb hpt
    obtain ⟨q, nm, h1, rfl, _⟩ := hnamed i p hp
    exact h.parts i q sh es h1 hb hpt
  case concat =>
    intro v c val hv
    have hsm : ∀ (i : Nat) (p q : PObj K F), st.objs[i]? = some p → (rename st.objs o name)[i]? = some q → SameObj p q := by
      intro i p q h1 h2
      obtain ⟨q', nm, h3, rfl, _⟩ := hnamed i q h2
      rw [h1] at h3
      cases h3
      exact ⟨rfl, rfl, rfl⟩
    exact (h.concat v c val hv).mono hext List.prefix_rfl h.lt (fun _ _ _ _ hs => h.assignLt hs) (hsm v) (fun o p q k h1 h2 _ _ _ _ => hsm o p q h1 h2) (assignsTo_nil _ _ (by simp))
  case made =>
    intro n name' sh val hs
    rcases List.mem_append.1 hs with hs | hs
    · obtain ⟨v, c, h1, h2, h3, h4⟩ := h.made n name' sh val hs
      exact ⟨v, c, h1, h2, h3, List.mem_append_left _ h4⟩
    · simp at hs
  case targets =>
    intro n z key y hs
    rcases List.mem_append.1 hs with hs | hs
    · exact h.targets n z key y hs
    · simp at hs
  case asms =>
    intro i p k hp hb hk ha
    obtain ⟨q, nm, h1, rfl, _⟩ := hnamed i p hp
    obtain ⟨v, c, val, r, a1, a2, a3, a4⟩ := h.asms i q k h1 hb hk ha
    refine ⟨v, c, val, ?_⟩
    simp only [getElem?_rename, a3]
    split
    · exact ⟨_, a1, a2, rfl, a4⟩
    · exact ⟨_, a1, a2, rfl, a4⟩

omit [Field K] [DecidableEq K] in
theorem getD_mem {env : List Nat} {x : Nat} (h : x < env.length) : env[x]? = some (env.getD x 0) := by
  rw [List.getD_eq_getElem?_getD, List.getElem?_eq_getElem h]; rfl

theorem shapeOf_objects (objs : List (PObj K F)) (v : Nat) (hv : v < objs.length) : shapeOf objs v = (objects objs v).shape := by
  rw [shapeOf_eq (List.getElem?_eq_getElem hv), objects_eq (List.getElem?_eq_getElem hv)]

/-- a variable is indexed for the first time -/
theorem Inv.decompose {objs0 : Foreign K F} {L : List (Nat × Stmt K F)} {S : List (Name × Option (List Name))} {st : St K F} (h : Inv objs0 L S st) (v : Nat) (hv : v ∈ st.env)
    (hd : st.decomp.get? v = none) :
    Inv objs0 L S { st with objs := st.objs ++ [opObj st.objs.length (.part (shapeOf st.objs v) []) [v] 0], decomp := st.decomp.set v st.objs.length } := by
  have hn := getElem?_new st.objs (opObj st.objs.length (.part (shapeOf st.objs v) []) [v] 0) []
  have hpre : st.objs <+: st.objs ++ [opObj st.objs.length (.part (shapeOf st.objs v) []) [v] 0] := List.prefix_append _ _
  have hvo : ∀ w ∈ st.env, objects (st.objs ++ [opObj st.objs.length (.part (shapeOf st.objs v) []) [v] 0]) w = objects st.objs w := fun w hw => objects_append _ _ _ (h.lt w hw)
  rw [← List.append_nil L, ← List.append_nil S]
  have hsame : ∀ (i : Nat) (p q : PObj K F), st.objs[i]? = some p → (st.objs ++ [opObj st.objs.length (.part (shapeOf st.objs v) []) [v] 0])[i]? = some q → SameObj p q := by
    intro i p q h1 h2
    rw [getElem?_prefix hpre h1] at h2
    cases h2
    exact .refl _
  refine h.extend' (e := []) (in' := []) (de' := []) (ou' := []) (su' := []) (Ext.append _ _) ?_ (by simp) (by simp) (by simp) (by simp) (by simp) (by simp) (by simp) (Or.inl (by simp))
    (fun x h1 h2 => absurd h1 (by simpa using h2)) ?_ .nil .nil .nil (by simp) (by simp) (by simp) (by simp) (by simp) ?_ rfl .nil (by simpa using h.subNames.1) ?_ ?_
    (fun w c val hw => (h.concat w c val hw).mono (Ext.append _ _) List.prefix_rfl h.lt (fun _ _ _ _ hs => h.assignLt hs) (hsame w) (fun o p q k h1 h2 _ _ _ _ => hsame o p q h1 h2) rfl)
    (by simpa using h.made) ?_ ⟨fun v cv hv => ⟨cv, hv⟩, by simp⟩
  · intro i p q h1 h2
    rw [getElem?_prefix hpre h1] at h2
    exact Or.inl (by cases h2; rfl)
  · intro i p hi hl
    rcases getElem?_app_cases hi with hi | ⟨j, rfl, hj⟩
    · have := lt_of_some hi
      omega
    · obtain ⟨rfl, rfl⟩ : j = 0 ∧ p = opObj st.objs.length (.part (shapeOf st.objs v) []) [v] 0 := by
        cases j with
        | zero => exact ⟨rfl, by simpa using hj.symm⟩
        | succ j => simp at hj
      refine ⟨.op rfl ?_ ?_ List.nodup_nil (Or.inl ?_), rfl, Or.inr (Or.inr (Or.inr (Or.inr rfl)))⟩
      · intro d hdd
        obtain rfl : d = v := by simpa [opObj] using hdd
        exact ⟨(h.env d hv).1, (h.env d hv).2.mono (Ext.append _ _)⟩
      · intro w hw
        simp [opObj] at hw
      · intro w hw
        simp [opObj] at hw
  · simp only [List.foldl_nil]
    exact shapes_append st _ h.lt
  · intro w o ho
    rw [Dict.get?_set] at ho
    split at ho
    · rename_i he
      subst he
      cases ho
      refine ⟨h.own (Nat.le_refl _), hv, _, [], hn, rfl, ?_, rfl, .nil, List.nodup_nil, by simp⟩
      rw [hvo _ hv, ← shapeOf_objects _ _ (h.lt _ hv)]; rfl
    · obtain ⟨h1, h2, p, es, h3, h4, h5, h6, h7, h8⟩ := h.decomp w o ho
      refine ⟨h1, h2, p, es, getElem?_prefix hpre h3, h4, ?_⟩
      rw [hvo w h2]
      refine ⟨h5, h6, h7.imp fun e w hw => ?_, h8⟩
      obtain ⟨q, h9, h10⟩ := hw
      exact ⟨q, getElem?_prefix hpre h9, h10⟩
  · intro i p sh es hi hb hp
    rcases getElem?_app_cases hi with hi | ⟨j, rfl, hj⟩
    · obtain ⟨w, h1, h2⟩ := h.parts i p sh es hi hb hp
      refine ⟨w, h1, ?_⟩
      rw [Dict.get?_set, if_neg]
      · exact h2
      · rintro rfl
        rw [hd] at h2
        cases h2
    · obtain ⟨rfl, rfl⟩ : j = 0 ∧ p = opObj st.objs.length (.part (shapeOf st.objs v) []) [v] 0 := by
        cases j with
        | zero => exact ⟨rfl, by simpa using hj.symm⟩
        | succ j => simp at hj
      exact ⟨v, rfl, by rw [Dict.get?_set, if_pos rfl]; rfl⟩
  · intro i p k hi hb hp hk
    rcases getElem?_app_cases hi with hi | ⟨j, rfl, hj⟩
    · obtain ⟨w, c, val, q, h1, h2, h3, h4⟩ := h.asms i p k hi hb hp hk
      exact ⟨w, c, val, q, h1, h2, getElem?_prefix hpre h3, h4⟩
    · obtain ⟨rfl, rfl⟩ : j = 0 ∧ p = opObj st.objs.length (.part (shapeOf st.objs v) []) [v] 0 := by
        cases j with
        | zero => exact ⟨rfl, by simpa using hj.symm⟩
        | succ j => simp at hj
      obtain ⟨_, _, _, rfl⟩ := hk
      cases hp

theorem partsOf_eq {objs : List (PObj K F)} {o : Nat} {p : PObj K F} {sh : Shape} {es : List (NKey × List Nat)} (h : objs[o]? = some p) (hp : p.op = some (.part sh es)) : partsOf objs o = es := by
  unfold partsOf
  rw [h, Option.bind_some, hp]

theorem outsOf_eq {objs : List (PObj K F)} {o : Nat} {p : PObj K F} (h : objs[o]? = some p) : outsOf objs o = p.obj.outs := by
  unfold outsOf
  rw [h]; rfl

/-- a `decompose` operation with one more result -/
def PObj.addPart (p : PObj K F) (sh : Shape) (es : List (NKey × List Nat)) (v : Nat) : PObj K F := { p with obj := { p.obj with outs := p.obj.outs ++ [v] }, op := some (.part sh es) }

/-- a part of a variable that has not been used before -/
theorem Inv.newPart {objs0 : Foreign K F} {L : List (Nat × Stmt K F)} {S : List (Name × Option (List Name))} {st : St K F} (h : Inv objs0 L S st) {x v o : Nat} {key : Key} {k : NKey}
    {src : List Nat} {es : List (NKey × List Nat)} {p : PObj K F} (hx : st.env[x]? = some v) (ho : st.decomp.get? v = some o) (hk : normalizeKey (shapeOf st.objs v) key = .ok k)
    (hs : srcIndices (shapeOf st.objs v) k = .ok src) (hp : st.objs[o]? = some p) (hop : p.op = some (.part (objects st.objs v).shape es)) (hnone : es.findIdx? (fun e => decide (e.1 = k)) = none) :
    Inv objs0 (L ++ [(st.env.length, .index x key)]) S
      { st with objs := Prog.addPart st.objs o (shapeOf st.objs v) (k, src) st.objs.length ++ [partObj o st.objs.length (npSliceShape (shapeOf st.objs v) k)], env := st.env ++ [st.objs.length] } := by
  obtain ⟨hb, hve, p0, es0, hp0, hkind, hop0, hdeps, hfor, hnd, hsrc⟩ := h.decomp v o ho
  obtain rfl : p0 = p := by rw [hp] at hp0; cases hp0; rfl
  obtain rfl : es0 = es := by rw [hop] at hop0; cases hop0; rfl
  clear hp0 hop0
  rename' p0 => p, es0 => es
  obtain ⟨g1, g2, g3, g4⟩ := h.opGood hp hb hkind
  have hlen := hfor.length_eq
  have hxl := lt_of_some hx
  have hxd : st.env.getD x 0 = v := by rw [List.getD_eq_getElem?_getD, hx]; rfl
  have hvl := h.lt v hve
  have hol := lt_of_some hp
  have hsv := shapeOf_objects st.objs v hvl
  rw [hsv] at hk hs ⊢
  generalize hobjs : Prog.addPart st.objs o (objects st.objs v).shape (k, src) st.objs.length ++ [partObj o st.objs.length (npSliceShape (objects st.objs v).shape k)] = objs'
  have hmidl : (Prog.addPart st.objs o (objects st.objs v).shape (k, src) st.objs.length).length = st.objs.length := by simp [Prog.addPart]
  have hN : objs'[st.objs.length]? = some (partObj o st.objs.length (npSliceShape (objects st.objs v).shape k)) := by
    rw [← hobjs, List.getElem?_append_right (by omega), hmidl]; simp
  have hO : objs'[o]? = some (p.addPart (objects st.objs v).shape (es ++ [(k, src)]) st.objs.length) := by
    rw [← hobjs, List.getElem?_append_left (by omega), Prog.addPart, List.getElem?_modify, hp, partsOf_eq hp hop]
    simp [PObj.addPart]
  have hI : ∀ i, i < st.objs.length → i ≠ o → objs'[i]? = st.objs[i]? := by
    intro i hi hio
    rw [← hobjs, List.getElem?_append_left (by omega), Prog.addPart, List.getElem?_modify]
    simp [Ne.symm hio]
  have hL' : objs'.length = st.objs.length + 1 := by rw [← hobjs]; simp [hmidl]
  clear hobjs hmidl
  have hgrow : p.Grows (p.addPart (objects st.objs v).shape (es ++ [(k, src)]) st.objs.length) :=
    ⟨rfl, rfl, rfl, rfl, rfl, rfl, .part _ _ _ hkind rfl (List.prefix_append _ _) hop rfl (List.prefix_append _ _)⟩
  have hext : Ext st.objs objs' := by
    intro i q hq
    by_cases hio : i = o
    · subst hio
      rw [hp] at hq; cases hq
      exact ⟨_, hO, hgrow⟩
    · exact ⟨q, (hI i (lt_of_some hq) hio).trans hq, .refl q⟩
  have hkeep : ∀ (i : Nat) (q : PObj K F), st.objs[i]? = some q → q.obj.kind ≠ .op → objs'[i]? = some q := by
    intro i q hq hqk
    rw [hI i (lt_of_some hq) ?_, hq]
    rintro rfl
    rw [hp] at hq; cases hq
    exact hqk hkind
  have hobj : ∀ w ∈ st.env, objects objs' w = objects st.objs w := by
    intro w hw
    obtain ⟨q, h1, h2⟩ := (h.env w hw).2
    rw [objects_eq h1, objects_eq (hkeep w q h1 (by rw [h2]; decide))]
  have hres : IsResult objs' st.objs.length o := ⟨_, hN, rfl, rfl, rfl, rfl⟩
  have hlater : Later st.objs st.env objs' (st.env ++ [st.objs.length]) := by
    refine ⟨hext, List.prefix_append _ _, fun w hw => ?_⟩
    rcases List.mem_append.1 hw with hw | hw
    · exact Or.inl hw
    · exact Or.inr (by simpa using Nat.le_of_eq (List.mem_singleton.1 hw).symm)
  have hsh : shapeAt objs' (st.env ++ [st.objs.length]) x = (objects st.objs v).shape := by
    unfold shapeAt
    rw [getD_prefix (List.prefix_append _ _) x hxl, hxd, hobj v hve]
  have hkp : keyPart (objects st.objs v).shape key = .ok (k, src) := by
    unfold keyPart
    rw [hk]
    simp only [hs]; rfl
  have hopof : OpOf objs' (st.env ++ [st.objs.length]) st.env.length (.index x key) o := by
    refine ⟨_, .part (objects st.objs v).shape (es ++ [(k, src)]), [x], 1, es.length, hO, hkind, ?_, rfl, Or.inl ⟨_, _, rfl⟩, ?_, by simpa using hxl, ?_⟩
    · rw [← hsh] at hkp ⊢
      exact .index hkp (by simp)
    · intro i hi
      obtain rfl : i = 0 := by omega
      refine ⟨st.objs.length, ?_, by simp, hres⟩
      show (p.obj.outs ++ [st.objs.length])[es.length + 0]? = _
      rw [hlen]; simp
    · show List.Forall₂ _ p.obj.deps _
      rw [hdeps, List.map_cons, List.map_nil, getD_prefix (List.prefix_append _ _) x hxl, hxd]
      exact .cons (Or.inl rfl) .nil
  have hnum : ∀ n s, (n, s) ∈ L → n ≤ st.env.length := fun n s hs => Nat.le_trans (Nat.le_add_right _ _) (h.nums n s hs)
  rw [← List.append_nil S]
  refine h.extend' (e := [st.objs.length]) (in' := []) (de' := []) (ou' := []) (su' := []) hext ?_ rfl (by simp) (by simp) (by simp) (by simp) ?_ ?_ (Or.inl ?_) ?_ ?_ .nil .nil .nil (by simp) (by simp) (by simp) (by simp) (by simp)
    ?_ rfl .nil (by simpa using h.subNames.1) ?_ ?_ ?_ ?_ ?_ ⟨fun v cv hv => ⟨cv, hv⟩, by simp⟩
  · intro i q r h1 h2
    by_cases hio : i = o
    · subst hio
      have h2 : objs'[i]? = some q := h2
      rw [hp] at h1; cases h1
      rw [hO] at h2; cases h2
      refine Or.inr ⟨hb, rfl, rfl, .op hkind ?_ ?_ ?_ (Or.inl ?_)⟩
      · exact fun d hd => ⟨(g1 d hd).1, (g1 d hd).2.mono hext⟩
      · intro w hw
        rcases List.mem_append.1 (show w ∈ p.obj.outs ++ [st.objs.length] from hw) with hw | hw
        · exact (g2 w hw).mono hext
        · obtain rfl : w = st.objs.length := by simpa using hw
          exact hres
      · show (p.obj.outs ++ [st.objs.length]).Nodup
        rw [List.nodup_append]
        refine ⟨g3, by simp, fun a ha b hb hab => ?_⟩
        have := (g2 a ha).isVar.lt
        have : b = st.objs.length := by simpa using hb
        omega
      · intro w hw
        rcases List.mem_append.1 (show w ∈ p.obj.outs ++ [st.objs.length] from hw) with hw | hw
        · rcases g4 with g4 | ⟨d, _, hc⟩ | ⟨_, _, hc, ⟨_, _, _, rfl⟩, _⟩
          · obtain ⟨n, s, y, a1, a2, a3, a4, a5⟩ := g4 w hw
            exact ⟨n, s, y, List.mem_append_left _ a1, a2.mono hlater h.lt (hnum n s a1), a3, a4, getElem?_prefix (List.prefix_append _ _) a5⟩
          · obtain ⟨q, h1, _, h2, _⟩ := hc.1.op
            rw [hp] at h1; cases h1
            rw [hop] at h2; cases h2
          · rw [hop] at hc; cases hc
        · obtain rfl : w = st.objs.length := by simpa using hw
          exact ⟨st.env.length, .index x key, st.env.length, by simp, hopof, Nat.le_refl _, by simp [Stmt.count], by simp⟩
    · have h2 : objs'[i]? = some q := h2
      rw [hI i (lt_of_some h1) hio, h1] at h2
      exact Or.inl (by cases h2; rfl)
  · intro w hw
    obtain rfl : w = st.objs.length := by simpa using hw
    exact ⟨Or.inr (Nat.le_refl _), h.own (Nat.le_refl _), hres.isVar⟩
  · intro n s hs
    obtain ⟨rfl, rfl⟩ : n = st.env.length ∧ s = .index x key := by simpa using hs
    exact ⟨by simp [Stmt.count], .op o hopof⟩
  · intro n s hs
    obtain ⟨rfl, rfl⟩ : n = st.env.length ∧ s = .index x key := by simpa using hs
    exact Or.inr ⟨x, key, rfl⟩
  · exact fun y h1 h2 => ⟨_, _, List.mem_singleton_self _, h1, by simpa [Stmt.count] using h2⟩
  · intro i q hi hl
    have hi : objs'[i]? = some q := hi
    obtain rfl : i = st.objs.length := by
      have := lt_of_some hi
      omega
    rw [hN] at hi; cases hi
    refine ⟨.result o _ rfl rfl rfl rfl hb hO hkind ?_, rfl, Or.inr (Or.inr (Or.inr (Or.inr rfl)))⟩
    show _ ∈ p.obj.outs ++ [st.objs.length]
    simp
  · simp only [List.foldl_cons, List.foldl_nil, stepShapes, List.map_append, List.map_cons, List.map_nil]
    congr 1
    · exact List.map_congr_left fun w hw => by rw [hobj w hw]
    · have h4 : (st.env.map fun o => (objects st.objs o).shape).getD x [] = (objects st.objs v).shape := by
        rw [List.getD_eq_getElem?_getD, List.getElem?_map, hx]; rfl
      rw [objects_eq hN, h4, partShape, hk]; rfl
  · intro w i hw
    obtain ⟨a1, a2, q, fs, a3, a4, a5, a6, a7, a8, a9⟩ := h.decomp w i hw
    have hfs : ∀ (l : List Nat), List.Forall₂ (fun e w' => ∃ q, st.objs[w']? = some q ∧ q.obj.kind = .var ∧ q.obj.shape = npSliceShape (objects st.objs w).shape e.1) fs l →
        List.Forall₂ (fun e w' => ∃ q, objs'[w']? = some q ∧ q.obj.kind = .var ∧ q.obj.shape = npSliceShape (objects st.objs w).shape e.1) fs l := fun l hl => hl.imp fun e w' hw' => by
      obtain ⟨r, b1, b2, b3⟩ := hw'
      exact ⟨r, hkeep _ _ b1 (by rw [b2]; decide), b2, b3⟩
    refine ⟨a1, List.mem_append_left _ a2, ?_⟩
    show ∃ p es, objs'[i]? = some p ∧ _
    by_cases hio : i = o
    · subst hio
      rw [hp] at a3; cases a3
      obtain rfl : w = v := by rw [hdeps] at a6; simpa using a6.symm
      obtain rfl : fs = es := by rw [hop] at a5; cases a5; rfl
      refine ⟨_, fs ++ [(k, src)], hO, a4, ?_, a6, ?_, ?_, ?_⟩
      · simp only [hobj w a2]; rfl
      · simp only [hobj w a2]
        refine List.rel_append (hfs _ a7) (.cons ⟨_, hN, rfl, rfl⟩ .nil)
      · rw [List.map_append, List.nodup_append]
        refine ⟨a8, by simp, ?_⟩
        rintro a ha b hb' rfl
        obtain rfl : a = k := by simpa using hb'
        obtain ⟨e, he, hek⟩ := List.mem_map.1 ha
        have := List.findIdx?_eq_none_iff.1 hnone e he
        simp [hek] at this
      · intro e he
        simp only [hobj w a2]
        rcases List.mem_append.1 he with he | he
        · exact a9 e he
        · obtain rfl : e = (k, src) := by simpa using he
          exact hs
    · refine ⟨q, fs, (hI i (lt_of_some a3) hio).trans a3, a4, ?_⟩
      simp only [hobj w a2]
      exact ⟨a5, a6, hfs _ a7, a8, a9⟩
  · intro i q sh fs hi hbi hq
    have hi : objs'[i]? = some q := hi
    by_cases hio : i = o
    · subst hio
      rw [hO] at hi; cases hi
      exact ⟨v, hdeps, ho⟩
    · by_cases hil : i < st.objs.length
      · rw [hI i hil hio] at hi
        exact h.parts i q sh fs hi hbi hq
      · obtain rfl : i = st.objs.length := by
          have := lt_of_some hi
          omega
        rw [hN] at hi; cases hi
        cases hq
  · intro w c val hw
    refine (h.concat w c val hw).mono hext (List.prefix_append _ _) h.lt (fun _ _ _ _ hs => h.assignLt hs) ?_ ?_ (assignsTo_nil _ _ (by simp))
    · intro q r h1 h2
      obtain ⟨q', _, h3, h4, _⟩ := (h.concat w c val hw).asm
      rw [h1] at h3
      cases h3
      rw [hkeep w q h1 (by rw [h4]; decide)] at h2
      cases h2
      exact .refl _
    · rintro i q r _ h1 h2 _ h3 ⟨_, _, _, rfl⟩ _
      rw [hI i (lt_of_some h1) ?_, h1] at h2
      · cases h2
        exact .refl _
      · rintro rfl
        rw [hp] at h1
        cases h1
        rw [hop] at h3
        cases h3
  · intro n name sh val hs
    rcases List.mem_append.1 hs with hs | hs
    · obtain ⟨w, c, h1, h2, h3, h4⟩ := h.made n name sh val hs
      exact ⟨w, c, getElem?_prefix (List.prefix_append _ _) h1, h2, h3, h4⟩
    · simp at hs
  · rintro i q _ hi hbi hq ⟨sh', val, fs, rfl⟩
    have hi : objs'[i]? = some q := hi
    by_cases hio : i = o
    · subst hio
      rw [hO] at hi; cases hi
      cases hq
    · by_cases hil : i < st.objs.length
      · rw [hI i hil hio] at hi
        obtain ⟨w, c, val, r, h1, h2, h3, h4⟩ := h.asms i q _ hi hbi hq ⟨_, _, _, rfl⟩
        obtain ⟨r', _, h5, h6, _⟩ := (h.concat w c val h2).asm
        rw [h3] at h5
        cases h5
        exact ⟨w, c, val, r, h1, h2, hkeep w r h3 (by rw [h6]; decide), h4⟩
      · obtain rfl : i = st.objs.length := by
          have := lt_of_some hi
          omega
        rw [hN] at hi; cases hi
        cases hq

/-- a part of a variable -/
theorem Inv.part {objs0 : Foreign K F} {L : List (Nat × Stmt K F)} {S : List (Name × Option (List Name))} {st st' : St K F} (h : Inv objs0 L S st) {x v o : Nat} {key : Key} {k : NKey}
    (hx : st.env[x]? = some v) (ho : st.decomp.get? v = some o) (hk : normalizeKey (shapeOf st.objs v) key = .ok k) (he : execPart st v o k = .ok st') :
    Inv objs0 (L ++ [(st.env.length, .index x key)]) S st' ∧ st'.env.length = st.env.length + 1 ∧ st'.subs = st.subs := by
  obtain ⟨hb, hve, p, es, hp, hkind, hop, hdeps, hfor, hnd, hsrc⟩ := h.decomp v o ho
  obtain ⟨g1, g2, g3, g4⟩ := h.opGood hp hb hkind
  have hlen := hfor.length_eq
  have hxl := lt_of_some hx
  have hxd : st.env.getD x 0 = v := by rw [List.getD_eq_getElem?_getD, hx]; rfl
  have hvl := h.lt v hve
  have hsv := shapeOf_objects st.objs v hvl
  unfold execPart at he
  rw [partsOf_eq hp hop, outsOf_eq hp] at he
  split at he
  · rename_i j hj
    cases he
    refine ⟨?_, by simp, rfl⟩
    obtain ⟨hjl, hje, _⟩ := List.findIdx?_eq_some_iff_getElem.1 hj
    have hje : es[j].1 = k := by simpa using hje
    have hjo : j < p.obj.outs.length := by omega
    have hw : p.obj.outs[j]? = some (p.obj.outs.getD j 0) := getD_mem hjo
    have hmem := List.mem_of_getElem? hw
    have hres := g2 _ hmem
    have hwe : p.obj.outs.getD j 0 ∈ st.env := by
      rcases g4 with g4 | ⟨d, _, hc⟩ | ⟨_, _, hc, ⟨_, _, _, rfl⟩, _⟩
      · obtain ⟨n, s, y, _, _, _, _, h5⟩ := g4 _ hmem
        exact List.mem_of_getElem? h5
      · obtain ⟨q, h1, _, h2, _⟩ := hc.1.op
        rw [hp] at h1; cases h1
        rw [hop] at h2; cases h2
      · rw [hop] at hc; cases hc
    have hkp : keyPart (objects st.objs v).shape key = .ok es[j] := by
      unfold keyPart
      rw [← hsv, hk]
      simp only
      have := hsrc es[j] (List.getElem_mem _)
      rw [hje, ← hsv] at this
      rw [this, ← hje]; rfl
    have hsh : ∀ e', shapeAt st.objs (st.env ++ e') x = (objects st.objs v).shape := fun e' => by
      unfold shapeAt
      rw [getD_prefix (List.prefix_append _ _) x hxl, hxd]
    have := h.extend (st' := { st with env := st.env ++ [p.obj.outs.getD j 0] }) (new := []) (e := [p.obj.outs.getD j 0]) (in' := []) (de' := []) (su' := [])
      (T := [(st.env.length, .index x key)]) (S' := []) (by simp) rfl (by simp) (by simp) rfl (by simp)
      (by intro w hw; obtain rfl : w = p.obj.outs.getD j 0 := by simpa using hw
          exact ⟨Or.inl hwe, h.env _ hwe⟩)
      (by intro n s hs; obtain ⟨rfl, rfl⟩ : n = st.env.length ∧ s = .index x key := by simpa using hs
          refine ⟨by simp [Stmt.count], .op o ⟨p, .part (objects st.objs v).shape es, [x], 1, j, hp, hkind, ?_, hop, Or.inl ⟨_, _, rfl⟩, ?_, by simpa using hxl, ?_⟩⟩
          · rw [← hsh [p.obj.outs.getD j 0]] at hkp ⊢
            exact .index hkp (List.getElem?_eq_getElem hjl)
          · intro i hi
            obtain rfl : i = 0 := by omega
            exact ⟨_, hw, by simp, hres⟩
          · rw [hdeps, List.map_cons, List.map_nil, getD_prefix (List.prefix_append _ _) x hxl, hxd]
            exact .cons (Or.inl rfl) .nil)
      (Or.inl (by intro n s hs; obtain ⟨rfl, rfl⟩ : n = st.env.length ∧ s = .index x key := by simpa using hs
                  exact Or.inr ⟨x, key, rfl⟩))
      (fun x h1 h2 => ⟨_, _, List.mem_singleton_self _, h1, by simpa [Stmt.count] using h2⟩) (by simp) .nil .nil rfl (by simp) (by simp) (by simp)
      ?_ rfl .nil (by simpa using h.subNames.1) rfl (by simp) rfl (by simp)
    · simpa using this
    · simp only [List.foldl_cons, List.foldl_nil, stepShapes, List.map_append, List.map_cons, List.map_nil]
      congr 2
      obtain ⟨q, h1, _, h2⟩ := (List.forall₂_iff_get.1 hfor).2 j hjl hjo
      have h3 : p.obj.outs.getD j 0 = p.obj.outs.get ⟨j, hjo⟩ := by
        rw [List.getD_eq_getElem?_getD, List.getElem?_eq_getElem hjo]; rfl
      have h4 : (st.env.map fun o => (objects st.objs o).shape).getD x [] = shapeOf st.objs v := by
        rw [List.getD_eq_getElem?_getD, List.getElem?_map, hx, hsv]; rfl
      rw [h3, objects_eq h1, h2, h4, partShape, hk, hsv]
      exact congrArg _ hje
  · rename_i hnone
    split at he
    · cases he
    · rename_i src hs
      cases he
      refine ⟨?_, by simp, rfl⟩
      exact h.newPart hx ho hk hs hp hop hnone

theorem Inv.exec {objs0 : Foreign K F} {L : List (Nat × Stmt K F)} {S : List (Name × Option (List Name))} {st st' : St K F} (h : Inv objs0 L S st) (s : Stmt K F) (he : exec st s = .ok st') :
    Inv objs0 (L ++ [(st.env.length, s)]) S st' ∧ st'.env.length = st.env.length + s.count ∧ st'.subs = st.subs := by
  cases s with
  | input name shape val =>
    simp only [Prog.exec] at he
    split at he
    · cases he
    · rename_i hb
      cases he
      exact ⟨h.input name shape val (by simpa using hb), by simp [Stmt.count], rfl⟩
  | declare name shape ex =>
    simp only [Prog.exec] at he
    cases he
    exact ⟨h.declare name shape ex, by simp [Stmt.count], rfl⟩
  | connect a b =>
    simp only [Prog.exec] at he
    split at he
    · cases he
    · split at he
      · rename_i hm
        cases he
        refine ⟨?_, by simp [Stmt.count], rfl⟩
        have := h.extend (st' := st) (new := []) (e := []) (in' := []) (de' := []) (su' := []) (T := [(st.env.length, .connect a b)]) (S' := []) (by simp) (by simp) (by simp) (by simp) rfl (by simp)
          (by simp) (by intro n s hs; obtain ⟨rfl, rfl⟩ : n = st.env.length ∧ s = .connect a b := by simpa using hs
                        exact ⟨by simp [Stmt.count], .connect _ _⟩) (Or.inr ⟨by simp, by simp, by simp⟩) (fun x h1 h2 => absurd h1 (by omega)) (by simp) .nil .nil rfl (by simp) (by simp) (by simp) rfl
          (by simp [stepConnections, hm]) .nil (by simpa using h.subNames.1) rfl (by simp) rfl (by simp)
        simpa using this
      · rename_i hm
        cases he
        refine ⟨?_, by simp [Stmt.count], rfl⟩
        have := h.extend (st' := { st with connections := st.connections ++ [(a, b)] }) (new := []) (e := []) (in' := []) (de' := []) (su' := []) (T := [(st.env.length, .connect a b)]) (S' := [])
          (by simp) (by simp) (by simp) (by simp) rfl (by simp)
          (by simp) (by intro n s hs; obtain ⟨rfl, rfl⟩ : n = st.env.length ∧ s = .connect a b := by simpa using hs
                        exact ⟨by simp [Stmt.count], .connect _ _⟩) (Or.inr ⟨by simp, by simp, by simp⟩) (fun x h1 h2 => absurd h1 (by simpa using h2)) (by simp) .nil .nil rfl (by simp) (by simp) (by simp) rfl
          (by simp [stepConnections, hm]) .nil (by simpa using h.subNames.1) rfl (by simp) rfl (by simp)
        simpa using this
  | index x key =>
    simp only [Prog.exec] at he
    split at he
    · rename_i hx
      unfold execIndex at he
      split at he
      · cases he
      · rename_i k hk
        have hxv := getD_mem hx
        unfold withDecomp at he
        cases hd : st.decomp.get? (st.env.getD x 0) with
        | some o =>
          rw [hd] at he
          exact h.part hxv hd hk he
        | none =>
          rw [hd] at he
          refine (h.decompose _ (List.mem_of_getElem? hxv) hd).part hxv (by rw [Dict.get?_set, if_pos rfl]) ?_ he
          rw [← hk]
          congr 1
          unfold shapeOf
          rw [List.getElem?_append_left (h.lt _ (List.mem_of_getElem? hxv))]
    · cases he
  | output name shape val =>
    simp only [Prog.exec, execOutput] at he
    split at he
    · cases he
    · rename_i hb
      split at he
      · cases he
      · cases he
        exact ⟨h.output name shape val (by simpa using hb), by simp [Stmt.count], rfl⟩
  | assign y key x =>
    simp only [Prog.exec] at he
    split at he
    · rename_i hyx
      exact h.assign hyx.1 hyx.2 he
    · cases he
  | register name x =>
    simp only [Prog.exec] at he
    split at he
    · rename_i hx
      unfold execRegister at he
      split at he
      · cases he
      · rename_i hb
        split at he
        · cases he
        · rename_i ho
          split at he
          · cases he
          · rename_i hno
            split at he
            · cases he
            · cases he
              exact ⟨h.register name x _ (getD_mem hx) (by simpa using hb) (by simpa using ho) hno, by simp [Stmt.count], rfl⟩
    · cases he
  | call f args outs =>
    simp only [Prog.exec] at he
    split at he
    · rename_i ha
      cases he
      have ha : ∀ a ∈ args, a < st.env.length := by simpa using ha
      have hm : ∀ a ∈ args.map (st.env.getD · 0), a ∈ st.env := by
        intro a hh
        obtain ⟨x, hx, rfl⟩ := List.mem_map.1 hh
        exact List.mem_of_getElem? (getD_mem (ha x hx))
      obtain ⟨h1, h2, h3⟩ := dedup_spec (args.map (st.env.getD · 0)) st [] h hm
      refine ⟨?_, by simp [execCall, Stmt.count], rfl⟩
      exact h1.op (.call f args outs) (.fn f) args _ outs ⟨(by rintro ⟨_, _, h⟩; cases h), (by rintro ⟨_, _, _, h⟩; cases h)⟩ (.call f args outs) ha h3 rfl
    · cases he
  | expr i =>
    simp only [Prog.exec] at he
    split at he
    · rename_i ha
      rw [operands_eq] at ha
      have ha : i.first < st.env.length ∧ ∀ a ∈ i.others, a < st.env.length := by simpa using ha
      cases hl : lower i with
      | error e => rw [hl] at he; cases he
      | ok r =>
        rw [hl] at he
        cases r with
        | none =>
          simp only [execExpr, operands_eq, List.headD_cons] at he
          cases he
          have hxx := getD_mem ha.1
          have hmem := List.mem_of_getElem? hxx
          refine ⟨?_, by simp [Stmt.count], rfl⟩
          have := h.extend (st' := { st with env := st.env ++ [st.env.getD i.first 0] }) (new := []) (e := [st.env.getD i.first 0]) (in' := []) (de' := []) (su' := [])
            (T := [(st.env.length, .expr i)]) (S' := []) (by simp) rfl (by simp) (by simp) rfl (by simp)
            (by intro v hv; obtain rfl : v = st.env.getD i.first 0 := by simpa using hv
                exact ⟨Or.inl hmem, h.env _ hmem⟩)
            (by intro n s hs; obtain ⟨rfl, rfl⟩ : n = st.env.length ∧ s = .expr i := by simpa using hs
                refine ⟨by simp [Stmt.count], .alias (o := st.env.getD i.first 0) hl ha.1 ?_ (by simp)⟩
                exact getElem?_prefix (List.prefix_append _ _) hxx)
            (Or.inl (by intro n s hs; obtain ⟨rfl, rfl⟩ : n = st.env.length ∧ s = .expr i := by simpa using hs
                        obtain ⟨c, rfl⟩ := lower_none hl
                        exact Or.inl ⟨c, rfl⟩))
            (fun x h1 h2 => ⟨_, _, List.mem_singleton_self _, h1, by simpa [Stmt.count] using h2⟩) (by simp) .nil .nil rfl (by simp) (by simp) (by simp)
            (by simp [stepShapes, List.getD_eq_getElem?_getD, List.getElem?_map, List.getElem?_eq_getElem ha.1]) rfl .nil (by simpa using h.subNames.1) rfl (by simp) rfl (by simp)
          simpa using this
        | some r =>
          obtain ⟨k, as⟩ := r
          simp only [execExpr] at he
          have has := lower_args hl
          have hlt : ∀ a ∈ as, a < st.env.length := by
            rw [has]
            intro a haa
            rcases List.mem_cons.1 haa with rfl | haa
            · exact ha.1
            · exact ha.2 a haa
          have hm : ∀ a ∈ as.map (st.env.getD · 0), a ∈ st.env := by
            intro a hh
            obtain ⟨x, hx, rfl⟩ := List.mem_map.1 hh
            exact List.mem_of_getElem? (getD_mem (hlt x hx))
          unfold arithOp at he
          simp only at he
          split at he
          · cases he
            obtain ⟨h1, h2, h3⟩ := dedup_spec (as.map (st.env.getD · 0)) st [] h hm
            refine ⟨?_, by simp [Stmt.count], rfl⟩
            have hhd : (dedup st.objs [] (as.map (st.env.getD · 0))).2.headD 0 = st.env.getD i.first 0 := by rw [has]; exact dedup_head _ _ _
            have hshape : shapeOf (dedup st.objs [] (as.map (st.env.getD · 0))).1 ((dedup st.objs [] (as.map (st.env.getD · 0))).2.headD 0) =
                (objects (dedup st.objs [] (as.map (st.env.getD · 0))).1 (st.env.getD i.first 0)).shape := by
              rw [hhd]
              obtain ⟨p, hp, _⟩ := (h1.env _ (List.mem_of_getElem? (getD_mem ha.1))).2
              rw [shapeOf_eq hp, objects_eq hp]
            rw [hshape]
            refine h1.op (.expr i) (.arith k) as _ [_] ⟨(by rintro ⟨_, _, h⟩; cases h), (by rintro ⟨_, _, _, h⟩; cases h)⟩ (.expr hl) hlt h3 ?_
            simp only [stepShapes]
            congr 2
            rw [List.getD_eq_getElem?_getD, List.getElem?_map, List.getElem?_eq_getElem ha.1, List.getD_eq_getElem?_getD, List.getElem?_eq_getElem ha.1]
            rfl
          · cases he
    · cases he

/-- the submodels added by a method: name and promotes -/
def Body.added (b : Body K F) : List (Name × Option (List Name)) := b.subs.map fun s => (s.1, s.2.1)

end Csdl.Prog
