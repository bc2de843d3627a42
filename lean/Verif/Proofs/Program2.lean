import Verif.Proofs.Program
import Verif.Proofs.Dict
/-
The statements of a `define` method preserve the invariant.
-/
namespace Csdl.Prog
open Csdl Csdl.Arith
variable {K F : Type}

theorem objects_append (objs new : List (PObj K F)) (i : Nat) (h : i < objs.length) : objects (objs ++ new) i = objects objs i := by
  unfold objects
  rw [List.getElem?_append_left h]

theorem objects_eq {objs : List (PObj K F)} {i : Nat} {p : PObj K F} (h : objs[i]? = some p) : objects objs i = p.obj := by
  unfold objects
  rw [h]; rfl

theorem infoOf_append (objs new : List (PObj K F)) (i : Nat) (h : i < objs.length) : infoOf (objs ++ new) i = infoOf objs i := by
  unfold infoOf Objs.varInfo
  rw [objects_append objs new i h]

theorem shapeOf_eq {objs : List (PObj K F)} {i : Nat} {p : PObj K F} (h : objs[i]? = some p) : shapeOf objs i = p.obj.shape := by
  unfold shapeOf
  rw [h]; rfl

theorem lt_of_some {α : Type} {l : List α} {i : Nat} {a : α} (h : l[i]? = some a) : i < l.length := (List.getElem?_eq_some_iff.1 h).1

theorem getElem?_app_cases {α : Type} {l new : List α} {i : Nat} {a : α} (h : (l ++ new)[i]? = some a) : l[i]? = some a ∨ ∃ j, i = l.length + j ∧ new[j]? = some a := by
  rw [List.getElem?_append] at h
  split at h
  · exact Or.inl h
  · exact Or.inr ⟨i - l.length, by omega, h⟩

/-- what is used of an object is the same -/
structure SameObj (p q : PObj K F) : Prop where
  deps : q.obj.deps = p.obj.deps
  outs : q.obj.outs = p.obj.outs
  op : q.op = p.op

theorem SameObj.refl (p : PObj K F) : SameObj p p := ⟨rfl, rfl, rfl⟩

theorem assignsTo_append (env : List Nat) (v : Nat) (L T : List (Nat × Stmt K F)) : assignsTo env v (L ++ T) = assignsTo env v L ++ assignsTo env v T := List.filterMap_append

theorem assignsTo_mono {env env' : List Nat} (hp : env <+: env') (v : Nat) {L : List (Nat × Stmt K F)} (hz : ∀ n z key x, (n, Stmt.assign z key x) ∈ L → z < env.length) : assignsTo env' v L = assignsTo env v L := by
  unfold assignsTo
  refine List.filterMap_congr fun s hs => ?_
  obtain ⟨n, s⟩ := s
  cases s with
  | assign z key x =>
    obtain ⟨t, rfl⟩ := hp
    simp only [List.getElem?_append_left (hz n z key x hs)]
  | _ => rfl

theorem assignsTo_mem {env : List Nat} {v : Nat} {L : List (Nat × Stmt K F)} {kx : Key × Nat} : kx ∈ assignsTo env v L ↔ ∃ n z, (n, Stmt.assign z kx.1 kx.2) ∈ L ∧ env[z]? = some v := by
  unfold assignsTo
  rw [List.mem_filterMap]
  constructor
  · rintro ⟨⟨n, s⟩, hs, h⟩
    cases s with
    | assign z key x =>
      simp only at h
      split at h
      · rename_i hz
        cases h
        exact ⟨n, z, hs, hz⟩
      · cases h
    | _ => cases h
  · rintro ⟨n, z, hs, hz⟩
    exact ⟨_, hs, by simp [hz]⟩

theorem assignsTo_nil (env : List Nat) (v : Nat) {T : List (Nat × Stmt K F)} (h : ∀ n z key x, (n, Stmt.assign z key x) ∉ T) : assignsTo env v T = [] := by
  rw [List.eq_nil_iff_forall_not_mem]
  intro kx hk
  obtain ⟨n, z, h1, _⟩ := assignsTo_mem.1 hk
  exact h _ _ _ _ h1

theorem Asm.mono {a : Nat → Prop} {L T : List (Nat × Stmt K F)} {objs objs' : List (PObj K F)} {env env' : List Nat} {v : Nat} {c : Concat} {val : Val K} (h : Asm a L objs env v c val)
    (hext : Ext objs objs') (hp : env <+: env') (hv : ∀ v ∈ env, v < objs.length) (hz : ∀ n z key x, (n, Stmt.assign z key x) ∈ L → z < env.length ∧ x < env.length)
    (hs1 : ∀ p q : PObj K F, objs[v]? = some p → objs'[v]? = some q → SameObj p q)
    (hs2 : ∀ (o : Nat) (p q : PObj K F) (k : Kind K F), objs[o]? = some p → objs'[o]? = some q → p.obj.kind = .op → p.op = some k → k.IsAsm → p.obj.outs = [v] → SameObj p q)
    (hT : assignsTo env' v T = []) : Asm a (L ++ T) objs' env' v c val := by
  have e : assignsTo env' v (L ++ T) = assignsTo env v L := by
    rw [assignsTo_append, hT, List.append_nil, assignsTo_mono hp v fun n z key x hm => (hz n z key x hm).1]
  have hlt : ∀ kx ∈ assignsTo env v L, kx.2 < env.length := fun kx hk => by
    obtain ⟨n, z, h1, _⟩ := assignsTo_mem.1 hk
    exact (hz _ _ _ _ h1).2
  obtain ⟨x, name, h1, h2⟩ := h.stmt
  refine ⟨⟨x, name, List.mem_append_left _ h1, getElem?_prefix hp h2⟩, ?_⟩
  obtain ⟨p, es, h3, h4, h5, h6, h7, h8, h9, h10, h11⟩ := h.asm
  obtain ⟨q, g3, g⟩ := hext v p h3
  have gs := hs1 p q h3 g3
  rw [e]
  refine ⟨q, es, g3, g.kind.trans h4, g.role.trans h5, gs.outs.trans h6, g.shape.trans h7, ?_, h9, h10, ?_⟩
  · rw [List.forall₂_iff_get] at h8 ⊢
    refine ⟨h8.1, fun i hi hi' => ?_⟩
    obtain ⟨a1, a2⟩ := h8.2 i hi hi'
    refine ⟨a1.trans ?_, a2⟩
    have hm := hlt _ (List.get_mem (assignsTo env v L) ⟨i, hi⟩)
    unfold shapeAt
    rw [getD_prefix hp _ hm, hext.shape]
    apply hv
    rw [List.getD_eq_getElem?_getD, List.getElem?_eq_getElem hm]
    exact List.getElem_mem _
  · refine h11.imp (fun ⟨a1, a2, a3⟩ => ⟨a1, gs.deps.trans a2, a3⟩) ?_
    rintro ⟨a1, a2, o, r, a3, a4, a5, a6, a7, a8, a9⟩
    obtain ⟨r', b1, b⟩ := hext o r a5
    have bs := hs2 o r r' _ a5 b1 a6 a8 ⟨_, _, _, rfl⟩ a7
    refine ⟨a1, a2, o, r', gs.deps.trans a3, a4, b1, b.kind.trans a6, bs.outs.trans a7, bs.op.trans a8, bs.deps.trans (a9.trans ?_)⟩
    exact List.map_congr_left fun kx hk => (getD_prefix hp _ (hlt kx hk) 0).symm

variable [Field K] [DecidableEq K]

theorem Inv.assignLt {objs0 : Foreign K F} {L : List (Nat × Stmt K F)} {S : List (Name × Option (List Name))} {st : St K F} (h : Inv objs0 L S st) {n z : Nat} {key : Key} {x : Nat}
    (hs : (n, Stmt.assign z key x) ∈ L) : z < st.env.length ∧ x < st.env.length := by
  have h1 := h.nums _ _ hs
  have h2 := h.stmts _ _ hs
  simp only [Stmt.count] at h1
  cases h2 with
  | assign h3 h4 => omega
  | op o h3 =>
    obtain ⟨p, k, as, m, base, _, _, h3, _⟩ := h3
    cases h3

theorem Inv.extend' {objs0 : Foreign K F} {L T : List (Nat × Stmt K F)} {S S' : List (Name × Option (List Name))} {st st' : St K F} (h : Inv objs0 L S st)
    {e in' de' ou' : List Nat} {su' : List (Nat × Name × Option (List Name))}
    (hext : Ext st.objs st'.objs)
    (hold : ∀ i p q, st.objs[i]? = some q → st'.objs[i]? = some p → p = q ∨ (objs0.Own i ∧ p.obj.name = q.obj.name ∧ p.obj.auto = q.obj.auto ∧ Good objs0.Own (L ++ T) st' i p))
    (henv : st'.env = st.env ++ e) (hin : st'.inputs = st.inputs ++ in') (hde : st'.declared = st.declared ++ de') (hou : st'.outputs = st.outputs ++ ou')
    (hsu : st'.subs = st.subs ++ su') (hfresh : ∀ v ∈ e, (v ∈ st.env ∨ st.objs.length ≤ v) ∧ objs0.Own v ∧ IsVar st'.objs v)
    (hT : ∀ n s, (n, s) ∈ T → n + s.count ≤ st'.env.length ∧ Done st'.objs st'.env n s)
    (hnew : (∀ n s, (n, s) ∈ T → s.IsAlias) ∨ (e.Nodup ∧ (∀ v ∈ e, st.objs.length ≤ v) ∧ ∀ n s, (n, s) ∈ T → n = st.env.length))
    (hcov : ∀ x, st.env.length ≤ x → x < st'.env.length → ∃ n s, (n, s) ∈ T ∧ n ≤ x ∧ x < n + s.count)
    (hgood : ∀ i p, st'.objs[i]? = some p → st.objs.length ≤ i → Good objs0.Own (L ++ T) st' i p ∧ p.obj.auto = genHexName i ∧
      (i ∈ st'.inputs ∨ i ∈ st'.outputs ∨ i ∈ st'.declared ∨ i ∈ st'.subs.map (·.1) ∨ p.obj.name = p.obj.auto))
    (hin2 : List.Forall₂ (fun (i : Nat) (x : Nat × Name × Shape) => st'.env[x.1]? = some i ∧ infoOf st'.objs i = ⟨x.2.1, x.2.2⟩ ∧ checkBannedChars x.2.1 = true) in' (T.filterMap inputOf))
    (hde2 : List.Forall₂ (fun (i : Nat) (x : Nat × Name × Shape) => st'.env[x.1]? = some i ∧ infoOf st'.objs i = ⟨x.2.1, x.2.2⟩) de' (T.filterMap declaredOf))
    (hou2 : List.Forall₂ (fun (i : Nat) (x : Nat × Name) => st'.env[x.1]? = some i ∧ (infoOf st'.objs i).name = x.2 ∧ checkBannedChars x.2 = true) ou' (T.filterMap outputOf))
    (hin3 : ∀ i ∈ in', st.objs.length ≤ i ∧ ∃ p, st'.objs[i]? = some p ∧ p.obj.kind = .var ∧ p.obj.role = .input)
    (hde3 : ∀ i ∈ de', st.objs.length ≤ i ∧ ∃ p, st'.objs[i]? = some p ∧ p.obj.kind = .var ∧ p.obj.role = .declared)
    (hou3 : ∀ i ∈ ou', st.objs.length ≤ i ∧ ∃ p, st'.objs[i]? = some p ∧ p.obj.kind = .var ∧ p.obj.role = .output)
    (hin4 : in'.Nodup) (hou4 : ou'.Nodup)
    (hsh : st'.env.map (fun o => (objects st'.objs o).shape) = T.foldl (fun ss s => stepShapes ss s.2) (st.env.map fun o => (objects st.objs o).shape))
    (hcs : st'.connections = T.foldl (fun cs s => stepConnections cs s.2) st.connections)
    (hsu2 : List.Forall₂ (fun (s : Nat × Name × Option (List Name)) (x : Name × Option (List Name)) => s.2 = x ∧ objs0.Own s.1 ∧
      ∃ p, st'.objs[s.1]? = some p ∧ p.obj.kind = .model ∧ p.obj.name = x.1) su' S')
    (hsn : ((S ++ S').map (·.1)).Nodup ∧ ∀ x ∈ S', checkBannedChars x.1 = true)
    (hdc : ∀ v o, st'.decomp.get? v = some o → objs0.Own o ∧ v ∈ st'.env ∧ ∃ p es, st'.objs[o]? = some p ∧ p.obj.kind = .op ∧ p.op = some (.part (objects st'.objs v).shape es) ∧ p.obj.deps = [v] ∧
      List.Forall₂ (fun e w => ∃ q, st'.objs[w]? = some q ∧ q.obj.kind = .var ∧ q.obj.shape = npSliceShape (objects st'.objs v).shape e.1) es p.obj.outs ∧ (es.map (·.1)).Nodup ∧ ∀ e ∈ es, srcIndices (objects st'.objs v).shape e.1 = .ok e.2)
    (hpt : ∀ i p sh es, st'.objs[i]? = some p → objs0.Own i → p.op = some (.part sh es) → ∃ v, p.obj.deps = [v] ∧ st'.decomp.get? v = some i)
    (hcc : ∀ v c val, st'.concat.get? v = some (c, val) → Asm objs0.Own (L ++ T) st'.objs st'.env v c val)
    (hmd : ∀ n name sh val, (n, Stmt.output name sh val) ∈ L ++ T → ∃ v c, st'.env[n]? = some v ∧ st'.concat.get? v = some (c, val) ∧ c.shape = sh ∧ v ∈ st'.outputs)
    (has : ∀ i p k, st'.objs[i]? = some p → objs0.Own i → p.op = some k → k.IsAsm → ∃ v c val q, p.obj.outs = [v] ∧ st'.concat.get? v = some (c, val) ∧ st'.objs[v]? = some q ∧ q.obj.deps = [i])
    (htg : (∀ v cv, st.concat.get? v = some cv → ∃ cv', st'.concat.get? v = some cv') ∧ ∀ n z key x, (n, Stmt.assign z key x) ∈ T → ∃ v cv, st'.env[z]? = some v ∧ st'.concat.get? v = some cv) :
    Inv objs0 (L ++ T) (S ++ S') st' := by
  have hb0 : ∀ i p, objs0 i = some p → st'.objs[i]? = some p := by
    intro i p0 hi
    have h1 := h.base i p0 hi
    obtain ⟨p, h2, _⟩ := hext i _ h1
    rcases hold i p _ h1 h2 with h3 | h3
    · rw [h2, h3]
    · rw [Foreign.Own, hi] at h3
      exact absurd h3.1 (by simp)
  have hkeep : ∀ (i : Nat) (q : PObj K F), st.objs[i]? = some q → ∃ p, st'.objs[i]? = some p ∧ q.Grows p ∧ p.obj.name = q.obj.name := by
    intro i q hi
    obtain ⟨p, h2, g⟩ := hext i _ hi
    rcases hold i p _ hi h2 with h3 | h3
    · exact ⟨p, h2, g, by rw [h3]⟩
    · exact ⟨p, h2, g, h3.2.1⟩
  have hepre : st.env <+: st'.env := by rw [henv]; exact List.prefix_append _ _
  have hbase : ∀ {i : Nat}, st.objs.length ≤ i → objs0.Own i := fun hi => h.own hi
  have hlater : Later st.objs st.env st'.objs st'.env := ⟨hext, hepre, fun v hv => by
    rw [henv, List.mem_append] at hv
    exact hv.elim Or.inl fun hv => (hfresh v hv).1⟩
  have hg : Grows st st' := ⟨hlater, by rw [hin]; exact List.prefix_append _ _, by rw [hde]; exact List.prefix_append _ _, by rw [hou]; exact List.prefix_append _ _, by rw [hsu]; exact List.prefix_append _ _⟩
  have hnum : ∀ n s, (n, s) ∈ L → n ≤ st.env.length := fun n s hs => Nat.le_trans (Nat.le_add_right _ _) (h.nums n s hs)
  have hinfo : ∀ x i, st.env[x]? = some i → infoOf st'.objs i = infoOf st.objs i := fun x i hx => by
    obtain ⟨q, h1, h2⟩ := (h.env i (List.mem_of_getElem? hx)).2
    obtain ⟨p, h3, h4, h5⟩ := hkeep i q h1
    unfold infoOf Objs.varInfo
    rw [objects_eq h1, objects_eq h3, h5, h4.shape]
  have hsplit : ∀ i p, st'.objs[i]? = some p → st.objs.length ≤ i ∨ ∃ q, st.objs[i]? = some q := by
    intro i p hi
    by_cases hl : i < st.objs.length
    · exact Or.inr ⟨_, List.getElem?_eq_getElem hl⟩
    · exact Or.inl (by omega)
  refine { base := hb0, good := ?_, autos := ?_, names := ?_, env := ?_, nums := ?_, cover := ?_, stmts := ?_, fresh := ?_, inputs := ?_, declared := ?_, outputs := ?_, inputRole := ?_, declaredRole := ?_, outputRole := ?_, inputsNodup := ?_, outputsNodup := ?_, shapes := ?_, connections := ?_, subs := ?_, subNames := ?_, decomp := hdc, parts := hpt, concat := hcc, made := hmd, asms := has, targets := ?_ }
  · intro i p hi hb
    rcases hsplit i p hi with hl | ⟨q, hq⟩
    · exact (hgood i p hi hl).1
    · rcases hold i p q hq hi with rfl | h3
      · exact (h.good i p hq hb).mono hg (fun v hv => (h.env v hv).2.lt) (fun x hx => List.mem_append_left _ hx) hnum p.obj.name
      · exact h3.2.2.2
  · intro i p hi hb
    rcases hsplit i p hi with hl | ⟨q, hq⟩
    · exact (hgood i p hi hl).2.1
    · rcases hold i p q hq hi with rfl | h3
      · exact h.autos i p hq hb
      · rw [h3.2.2.1]
        exact h.autos i q hq hb
  · intro i p hi hb
    rcases hsplit i p hi with hl | ⟨q, hq⟩
    · exact (hgood i p hi hl).2.2
    · have : p.obj.name = q.obj.name ∧ p.obj.auto = q.obj.auto := by
        rcases hold i p q hq hi with rfl | h3
        · exact ⟨rfl, rfl⟩
        · exact ⟨h3.2.1, h3.2.2.1⟩
      rw [this.1, this.2]
      exact (h.names i q hq hb).imp (hg.inputs.subset ·) (Or.imp (hg.outputs.subset ·) (Or.imp (hg.declared.subset ·) (Or.imp ((hg.subs.map _).subset ·) id)))
  · intro v hv
    rw [henv, List.mem_append] at hv
    rcases hv with hv | hv
    · exact ⟨(h.env v hv).1, (h.env v hv).2.mono hext⟩
    · exact (hfresh v hv).2
  · intro n s hs
    rcases List.mem_append.1 hs with hs | hs
    · exact Nat.le_trans (h.nums n s hs) hepre.length_le
    · exact (hT n s hs).1
  · intro x hx
    by_cases hc : x < st.env.length
    · obtain ⟨n, s, h1, h2⟩ := h.cover x hc
      exact ⟨n, s, List.mem_append_left _ h1, h2⟩
    · obtain ⟨n, s, h1, h2⟩ := hcov x (by omega) hx
      exact ⟨n, s, List.mem_append_right _ h1, h2⟩
  · intro n s hs
    rcases List.mem_append.1 hs with hs | hs
    · exact (h.stmts n s hs).mono hlater (fun v hv => (h.env v hv).2.lt) (hnum n s hs)
    · exact (hT n s hs).2
  · intro n s hs
    rcases List.mem_append.1 hs with hs | hs
    · refine (h.fresh n s hs).imp id fun hf x o h1 h2 h3 y hy h4 => ?_
      have h5 := h.nums n s hs
      rw [henv, List.getElem?_append_left (by omega)] at h3 h4
      exact hf x o h1 h2 h3 y hy h4
    · rcases hnew with hn | ⟨hn1, hn2, hn3⟩
      · exact Or.inl (hn n s hs)
      · refine Or.inr fun x o h1 h2 h3 y hy h4 => ?_
        have := hn3 n s hs
        rw [henv, List.getElem?_append_right (by omega)] at h3
        rw [henv] at h4
        rcases getElem?_app_cases h4 with h4 | ⟨j, hj, h4⟩
        · have h5 := (h.env o (List.mem_of_getElem? h4)).2.lt
          have h6 := hn2 o (List.mem_of_getElem? h3)
          omega
        · have := (List.getElem?_inj (lt_of_some h3) hn1).1 (h3.trans h4.symm)
          omega
  · rw [hin, List.filterMap_append]
    refine List.rel_append ?_ hin2
    exact h.inputs.imp fun i x hx => ⟨getElem?_prefix hepre hx.1, (hinfo _ _ hx.1).trans hx.2.1, hx.2.2⟩
  · rw [hde, List.filterMap_append]
    refine List.rel_append ?_ hde2
    exact h.declared.imp fun i x hx => ⟨getElem?_prefix hepre hx.1, (hinfo _ _ hx.1).trans hx.2⟩
  · rw [hou, List.filterMap_append]
    refine List.rel_append ?_ hou2
    exact h.outputs.imp fun i x hx => ⟨getElem?_prefix hepre hx.1, by rw [hinfo _ _ hx.1]; exact hx.2.1, hx.2.2⟩
  · intro i hi
    rw [hin] at hi
    rcases List.mem_append.1 hi with hi | hi
    · obtain ⟨h1, p, h2, h3⟩ := h.inputRole i hi
      obtain ⟨q, h4, h5, _⟩ := hkeep _ _ h2
      exact ⟨h1, q, h4, h5.kind.trans h3.1, h5.role.trans h3.2⟩
    · exact ⟨hbase (hin3 i hi).1, (hin3 i hi).2⟩
  · intro i hi
    rw [hde] at hi
    rcases List.mem_append.1 hi with hi | hi
    · obtain ⟨h1, p, h2, h3⟩ := h.declaredRole i hi
      obtain ⟨q, h4, h5, _⟩ := hkeep _ _ h2
      exact ⟨h1, q, h4, h5.kind.trans h3.1, h5.role.trans h3.2⟩
    · exact ⟨hbase (hde3 i hi).1, (hde3 i hi).2⟩
  · intro i hi
    rw [hou] at hi
    rcases List.mem_append.1 hi with hi | hi
    · obtain ⟨h1, p, h2, h3⟩ := h.outputRole i hi
      obtain ⟨q, h4, h5, _⟩ := hkeep _ _ h2
      exact ⟨h1, q, h4, h5.kind.trans h3.1, h5.role.trans h3.2⟩
    · exact ⟨hbase (hou3 i hi).1, (hou3 i hi).2⟩
  · rw [hin, List.nodup_append]
    refine ⟨h.inputsNodup, hin4, fun a ha b hb hab => ?_⟩
    have h1 := lt_of_some (h.inputRole a ha).2.choose_spec.1
    have h2 := (hin3 b hb).1
    omega
  · rw [hou, List.nodup_append]
    refine ⟨h.outputsNodup, hou4, fun a ha b hb hab => ?_⟩
    have h1 := lt_of_some (h.outputRole a ha).2.choose_spec.1
    have h2 := (hou3 b hb).1
    omega
  · rw [hsh, h.shapes, shapesOf, shapesOf, List.foldl_append]
  · rw [hcs, h.connections, List.foldl_append]
  · rw [hsu]
    refine List.rel_append ?_ hsu2
    refine h.subs.imp fun s x hx => ⟨hx.1, hx.2.1, ?_⟩
    obtain ⟨p, h2, h3⟩ := hx.2.2
    obtain ⟨q, h4, h5, h6⟩ := hkeep _ _ h2
    exact ⟨q, h4, h5.kind.trans h3.1, h6.trans h3.2⟩
  · refine ⟨hsn.1, fun x hx => ?_⟩
    rcases List.mem_append.1 hx with hx | hx
    · exact h.subNames.2 x hx
    · exact hsn.2 x hx
  · intro n z key x hs
    rcases List.mem_append.1 hs with hs | hs
    · obtain ⟨v, cv, h1, h2⟩ := h.targets n z key x hs
      obtain ⟨cv', h3⟩ := htg.1 v cv h2
      exact ⟨v, cv', getElem?_prefix hepre h1, h3⟩
    · exact htg.2 n z key x hs

theorem Inv.extend {objs0 : Foreign K F} {L T : List (Nat × Stmt K F)} {S S' : List (Name × Option (List Name))} {st st' : St K F} (h : Inv objs0 L S st)
    {new : List (PObj K F)} {e in' de' : List Nat} {su' : List (Nat × Name × Option (List Name))}
    (hobjs : st'.objs = st.objs ++ new) (henv : st'.env = st.env ++ e) (hin : st'.inputs = st.inputs ++ in') (hde : st'.declared = st.declared ++ de') (hou : st'.outputs = st.outputs)
    (hsu : st'.subs = st.subs ++ su') (hfresh : ∀ v ∈ e, (v ∈ st.env ∨ st.objs.length ≤ v) ∧ objs0.Own v ∧ IsVar st'.objs v)
    (hT : ∀ n s, (n, s) ∈ T → n + s.count ≤ st'.env.length ∧ Done st'.objs st'.env n s)
    (hnew : (∀ n s, (n, s) ∈ T → s.IsAlias) ∨ (e.Nodup ∧ (∀ v ∈ e, st.objs.length ≤ v) ∧ ∀ n s, (n, s) ∈ T → n = st.env.length))
    (hcov : ∀ x, st.env.length ≤ x → x < st'.env.length → ∃ n s, (n, s) ∈ T ∧ n ≤ x ∧ x < n + s.count)
    (hgood : ∀ j p, new[j]? = some p → Good objs0.Own (L ++ T) st' (st.objs.length + j) p ∧ p.obj.auto = genHexName (st.objs.length + j) ∧
      (st.objs.length + j ∈ st'.inputs ∨ st.objs.length + j ∈ st'.outputs ∨ st.objs.length + j ∈ st'.declared ∨ st.objs.length + j ∈ st'.subs.map (·.1) ∨ p.obj.name = p.obj.auto))
    (hin2 : List.Forall₂ (fun (i : Nat) (x : Nat × Name × Shape) => st'.env[x.1]? = some i ∧ infoOf st'.objs i = ⟨x.2.1, x.2.2⟩ ∧ checkBannedChars x.2.1 = true) in' (T.filterMap inputOf))
    (hde2 : List.Forall₂ (fun (i : Nat) (x : Nat × Name × Shape) => st'.env[x.1]? = some i ∧ infoOf st'.objs i = ⟨x.2.1, x.2.2⟩) de' (T.filterMap declaredOf))
    (hou2 : T.filterMap outputOf = [])
    (hin3 : ∀ i ∈ in', st.objs.length ≤ i ∧ ∃ p, st'.objs[i]? = some p ∧ p.obj.kind = .var ∧ p.obj.role = .input)
    (hde3 : ∀ i ∈ de', st.objs.length ≤ i ∧ ∃ p, st'.objs[i]? = some p ∧ p.obj.kind = .var ∧ p.obj.role = .declared)
    (hin4 : in'.Nodup)
    (hsh : st'.env.map (fun o => (objects st'.objs o).shape) = T.foldl (fun ss s => stepShapes ss s.2) (st.env.map fun o => (objects st.objs o).shape))
    (hcs : st'.connections = T.foldl (fun cs s => stepConnections cs s.2) st.connections)
    (hsu2 : List.Forall₂ (fun (s : Nat × Name × Option (List Name)) (x : Name × Option (List Name)) => s.2 = x ∧ objs0.Own s.1 ∧
      ∃ p, st'.objs[s.1]? = some p ∧ p.obj.kind = .model ∧ p.obj.name = x.1) su' S')
    (hsn : ((S ++ S').map (·.1)).Nodup ∧ ∀ x ∈ S', checkBannedChars x.1 = true)
    (hdc : st'.decomp = st.decomp) (hnp : ∀ (j : Nat) (p : PObj K F) (k : Kind K F), new[j]? = some p → p.op = some k → ¬ k.IsPart ∧ ¬ k.IsAsm)
    (hcc : st'.concat = st.concat) (hna : ∀ n s, (n, s) ∈ T → (∀ z key x, s ≠ .assign z key x) ∧ ∀ name sh val, s ≠ .output name sh val) : Inv objs0 (L ++ T) (S ++ S') st' := by
  have hpre : st.objs <+: st'.objs := by rw [hobjs]; exact List.prefix_append _ _
  have hepre : st.env <+: st'.env := by rw [henv]; exact List.prefix_append _ _
  have hext : Ext st.objs st'.objs := by rw [hobjs]; exact Ext.append _ _
  have hsame : ∀ (i : Nat) (p q : PObj K F), st.objs[i]? = some p → st'.objs[i]? = some q → SameObj p q := by
    intro i p q h1 h2
    rw [getElem?_prefix hpre h1] at h2
    cases h2
    exact .refl _
  refine h.extend' (ou' := []) hext ?_ henv hin hde (by rw [hou, List.append_nil]) hsu hfresh hT hnew hcov ?_ hin2 hde2 (by rw [hou2]; exact .nil) hin3 hde3 (by simp) hin4 List.nodup_nil hsh hcs hsu2 hsn ?_ ?_ ?_ ?_ ?_
    ⟨fun v cv hv => ⟨cv, by rw [hcc]; exact hv⟩, fun n z key x hs => absurd rfl ((hna _ _ hs).1 z key x)⟩
  · intro i p q h1 h2
    rw [getElem?_prefix hpre h1] at h2
    exact Or.inl (by cases h2; rfl)
  · intro i p hi hl
    rw [hobjs] at hi
    rcases getElem?_app_cases hi with hi | ⟨j, rfl, hj⟩
    · have := lt_of_some hi
      omega
    · exact hgood j p hj
  · intro v o hv
    rw [hdc] at hv
    obtain ⟨h1, h2, p, es, h3, h4, h5, h6, h7, h8⟩ := h.decomp v o hv
    refine ⟨h1, hepre.subset h2, p, es, getElem?_prefix hpre h3, h4, ?_⟩
    have : objects st'.objs v = objects st.objs v := by rw [hobjs, objects_append _ _ _ (h.env v h2).2.lt]
    rw [this]
    refine ⟨h5, h6, h7.imp fun e w hw => ?_, h8⟩
    obtain ⟨q, h9, h10⟩ := hw
    exact ⟨q, getElem?_prefix hpre h9, h10⟩
  · intro i p sh es hi hb hp
    rw [hobjs] at hi
    rw [hdc]
    rcases getElem?_app_cases hi with hi | ⟨j, rfl, hj⟩
    · exact h.parts i p sh es hi hb hp
    · exact absurd ⟨sh, es, rfl⟩ (hnp j p _ hj hp).1
  · intro v c val hv
    rw [hcc] at hv
    refine (h.concat v c val hv).mono hext hepre (fun v hv => (h.env v hv).2.lt) (fun _ _ _ _ hs => h.assignLt hs) (hsame v) (fun o p q k h1 h2 _ _ _ _ => hsame o p q h1 h2) ?_
    exact assignsTo_nil _ _ fun n z key x hm => (hna _ _ hm).1 z key x rfl
  · intro n name sh val hs
    rcases List.mem_append.1 hs with hs | hs
    · obtain ⟨v, c, h1, h2, h3, h4⟩ := h.made n name sh val hs
      exact ⟨v, c, getElem?_prefix hepre h1, by rw [hcc]; exact h2, h3, by rw [hou]; exact h4⟩
    · exact absurd rfl ((hna _ _ hs).2 name sh val)
  · intro i p k hi hb hp hk
    rw [hobjs] at hi
    rw [hcc]
    rcases getElem?_app_cases hi with hi | ⟨j, rfl, hj⟩
    · obtain ⟨v, c, val, q, h1, h2, h3, h4⟩ := h.asms i p k hi hb hp hk
      exact ⟨v, c, val, q, h1, h2, getElem?_prefix hpre h3, h4⟩
    · exact absurd hk (hnp j p _ hj hp).2

theorem Inv.start (objs0 : List (PObj K F)) : Inv (Foreign.of objs0) [] [] { objs := objs0 } where
  base := fun _ _ h => h
  good := fun i p h hb => absurd (lt_of_some h) (by simpa using Foreign.own_of.1 hb)
  autos := fun i p h hb => absurd (lt_of_some h) (by simpa using Foreign.own_of.1 hb)
  names := fun i p h hb => absurd (lt_of_some h) (by simpa using Foreign.own_of.1 hb)
  env := by simp
  nums := by simp
  cover := by simp
  stmts := by simp
  fresh := by simp
  inputs := .nil
  declared := .nil
  outputs := .nil
  inputRole := by simp
  declaredRole := by simp
  outputRole := by simp
  inputsNodup := List.nodup_nil
  outputsNodup := List.nodup_nil
  shapes := rfl
  connections := rfl
  subs := .nil
  subNames := by simp
  decomp := by simp [Dict.get?]
  parts := fun i p _ _ h hb => absurd (lt_of_some h) (by simpa using Foreign.own_of.1 hb)
  concat := by simp [Dict.get?]
  made := by simp
  asms := fun i p _ h hb => absurd (lt_of_some h) (by simpa using Foreign.own_of.1 hb)
  targets := by simp

omit [Field K] [DecidableEq K] in
theorem shapes_append (st : St K F) (new : List (PObj K F)) (hv : ∀ v ∈ st.env, v < st.objs.length) :
    st.env.map (fun o => (objects (st.objs ++ new) o).shape) = st.env.map (fun o => (objects st.objs o).shape) :=
  List.map_congr_left fun v h => by rw [objects_append _ _ _ (hv v h)]

theorem Inv.lt {objs0 : Foreign K F} {L : List (Nat × Stmt K F)} {S : List (Name × Option (List Name))} {st : St K F} (h : Inv objs0 L S st) : ∀ v ∈ st.env, v < st.objs.length :=
  fun v hv => (h.env v hv).2.lt

theorem getElem?_new {α : Type} (l : List α) (a : α) (t : List α) : (l ++ a :: t)[l.length]? = some a := by
  rw [List.getElem?_append_right (Nat.le_refl _)]; simp

omit [Field K] [DecidableEq K] in
theorem notPart {q : PObj K F} (h : q.op = none) : ∀ (j : Nat) (p : PObj K F) (k : Kind K F), [q][j]? = some p → p.op = some k → ¬ k.IsPart ∧ ¬ k.IsAsm := by
  intro j p k hj hk
  cases j with
  | zero =>
    obtain rfl : q = p := by simpa using hj
    rw [h] at hk; cases hk
  | succ j => simp at hj

/-- a variable is created: `create_input`, `declare_variable` -/
theorem Inv.input {objs0 : Foreign K F} {L : List (Nat × Stmt K F)} {S : List (Name × Option (List Name))} {st : St K F} (h : Inv objs0 L S st) (name : Name) (shape : Shape) (val : Val K)
    (hb : checkBannedChars name = true) :
    Inv objs0 (L ++ [(st.env.length, .input name shape val)]) S
      { st with objs := st.objs ++ [newVarObj st.objs name .input false shape (some val)], env := st.env ++ [st.objs.length], inputs := st.inputs ++ [st.objs.length] } := by
  have hn := getElem?_new st.objs (newVarObj st.objs name .input false shape (some val)) []
  rw [← List.append_nil S]
  refine h.extend (new := [newVarObj st.objs name .input false shape (some val)]) (e := [st.objs.length]) (in' := [st.objs.length]) (de' := []) (su' := []) rfl rfl rfl (by simp) rfl (by simp)
    ?_ ?_ (Or.inr ⟨by simp, by simp, by simp⟩) ?_ ?_ ?_ .nil rfl ?_ (by simp) (by simp) ?_ rfl .nil ?_ rfl (notPart rfl) rfl (by simp)
  · intro v hv
    obtain rfl : v = st.objs.length := by simpa using hv
    exact ⟨Or.inr (Nat.le_refl _), h.own (Nat.le_refl _), _, hn, rfl⟩
  · intro n s hs
    obtain ⟨rfl, rfl⟩ : n = st.env.length ∧ s = .input name shape val := by simpa using hs
    exact ⟨by simp [Stmt.count], .input _ _ _ ⟨st.objs.length, _, by simp, hn, rfl, fun h => by cases h⟩⟩
  · intro x h1 h2
    exact ⟨_, _, List.mem_singleton_self _, h1, by simpa [Stmt.count] using h2⟩
  · intro j p hj
    obtain ⟨rfl, rfl⟩ : j = 0 ∧ p = newVarObj st.objs name .input false shape (some val) := by
      cases j with
      | zero => exact ⟨rfl, by simpa using hj.symm⟩
      | succ j => simp at hj
    exact ⟨.input rfl rfl rfl rfl (by simp) (by simp), rfl, Or.inl (by simp)⟩
  · refine .cons ⟨by simp, ?_, hb⟩ .nil
    unfold infoOf Objs.varInfo
    rw [objects_eq hn]; rfl
  · intro i hi
    obtain rfl : i = st.objs.length := by simpa using hi
    exact ⟨Nat.le_refl _, _, hn, rfl, rfl⟩
  · simp only [List.map_append, shapes_append st _ h.lt, List.map_cons, List.map_nil, objects_eq hn]
    rfl
  · simpa using h.subNames.1

theorem Inv.declare {objs0 : Foreign K F} {L : List (Nat × Stmt K F)} {S : List (Name × Option (List Name))} {st : St K F} (h : Inv objs0 L S st) (name : Name) (shape : Shape) (ex : Option (Val K)) :
    Inv objs0 (L ++ [(st.env.length, .declare name shape ex)]) S
      { st with objs := st.objs ++ [newVarObj st.objs name .declared ex.isSome shape ex], env := st.env ++ [st.objs.length], declared := st.declared ++ [st.objs.length] } := by
  have hn := getElem?_new st.objs (newVarObj st.objs name .declared ex.isSome shape ex) []
  rw [← List.append_nil S]
  refine h.extend (new := [newVarObj st.objs name .declared ex.isSome shape ex]) (e := [st.objs.length]) (in' := []) (de' := [st.objs.length]) (su' := []) rfl rfl (by simp) rfl rfl (by simp)
    ?_ ?_ (Or.inr ⟨by simp, by simp, by simp⟩) ?_ ?_ .nil ?_ rfl (by simp) ?_ (by simp) ?_ rfl .nil ?_ rfl (notPart rfl) rfl (by simp)
  · intro v hv
    obtain rfl : v = st.objs.length := by simpa using hv
    exact ⟨Or.inr (Nat.le_refl _), h.own (Nat.le_refl _), _, hn, rfl⟩
  · intro n s hs
    obtain ⟨rfl, rfl⟩ : n = st.env.length ∧ s = .declare name shape ex := by simpa using hs
    exact ⟨by simp [Stmt.count], .declare _ _ _ ⟨st.objs.length, _, by simp, hn, rfl, fun _ => rfl⟩⟩
  · intro x h1 h2
    exact ⟨_, _, List.mem_singleton_self _, h1, by simpa [Stmt.count] using h2⟩
  · intro j p hj
    obtain ⟨rfl, rfl⟩ : j = 0 ∧ p = newVarObj st.objs name .declared ex.isSome shape ex := by
      cases j with
      | zero => exact ⟨rfl, by simpa using hj.symm⟩
      | succ j => simp at hj
    exact ⟨.declared rfl rfl rfl rfl (by simp) (by simp), rfl, Or.inr (Or.inr (Or.inl (by simp)))⟩
  · refine .cons ⟨by simp, ?_⟩ .nil
    unfold infoOf Objs.varInfo
    rw [objects_eq hn]; rfl
  · intro i hi
    obtain rfl : i = st.objs.length := by simpa using hi
    exact ⟨Nat.le_refl _, _, hn, rfl, rfl⟩
  · simp only [List.map_append, shapes_append st _ h.lt, List.map_cons, List.map_nil, objects_eq hn]
    rfl
  · simpa using h.subNames.1

/-- an output that is to be assembled from parts is created -/
theorem Inv.output {objs0 : Foreign K F} {L : List (Nat × Stmt K F)} {S : List (Name × Option (List Name))} {st : St K F} (h : Inv objs0 L S st) (name : Name) (shape : Shape) (val : Val K)
    (hb : checkBannedChars name = true) :
    Inv objs0 (L ++ [(st.env.length, .output name shape val)]) S
      { st with objs := st.objs ++ [newVarObj st.objs name .output false shape none], env := st.env ++ [st.objs.length], outputs := st.outputs ++ [st.objs.length],
                concat := st.concat.set st.objs.length ({ shape := shape }, val) } := by
  have hn := getElem?_new st.objs (newVarObj st.objs name .output false shape none) []
  have hpre : st.objs <+: st.objs ++ [newVarObj st.objs name .output false shape none] := List.prefix_append _ _
  have hext := Ext.append st.objs [newVarObj st.objs name .output false shape none]
  have hsame : ∀ (i : Nat) (p q : PObj K F), st.objs[i]? = some p → (st.objs ++ [newVarObj st.objs name .output false shape none])[i]? = some q → p = q := by
    intro i p q h1 h2
    rw [getElem?_prefix hpre h1] at h2
    cases h2
    rfl
  have hold : ∀ v c val', st.concat.get? v = some (c, val') → v ≠ st.objs.length := by
    rintro v c val' hv rfl
    obtain ⟨p, es, h1, _⟩ := (h.concat _ _ _ hv).asm
    exact absurd (lt_of_some h1) (by omega)
  rw [← List.append_nil S]
  refine h.extend' (e := [st.objs.length]) (in' := []) (de' := []) (ou' := [st.objs.length]) (su' := []) hext (fun i p q h1 h2 => Or.inl (hsame i q p h1 h2).symm) rfl (by simp) (by simp) rfl (by simp)
    ?_ ?_ (Or.inr ⟨by simp, by simp, by simp⟩) ?_ ?_ .nil .nil ?_ (by simp) (by simp) ?_ (by simp) (by simp) ?_ rfl .nil ?_ ?_ ?_ ?_ ?_ ?_
    ⟨fun v cv hv => (by simp only [Dict.get?_set]; split; exacts [⟨_, rfl⟩, ⟨cv, hv⟩]), by simp⟩
  · intro v hv
    obtain rfl : v = st.objs.length := by simpa using hv
    exact ⟨Or.inr (Nat.le_refl _), h.own (Nat.le_refl _), _, hn, rfl⟩
  · intro n s hs
    obtain ⟨rfl, rfl⟩ : n = st.env.length ∧ s = .output name shape val := by simpa using hs
    exact ⟨by simp [Stmt.count], .output _ _ _⟩
  · intro x h1 h2
    exact ⟨_, _, List.mem_singleton_self _, h1, by simpa [Stmt.count] using h2⟩
  · intro i p hi hl
    rcases getElem?_app_cases hi with hi | ⟨j, rfl, hj⟩
    · exact absurd (lt_of_some hi) (by omega)
    · obtain ⟨rfl, rfl⟩ : j = 0 ∧ p = newVarObj st.objs name .output false shape none := by
        cases j with
        | zero => exact ⟨rfl, by simpa using hj.symm⟩
        | succ j => simp at hj
      exact ⟨.concat rfl rfl rfl rfl (by simp) (by simp), rfl, Or.inr (Or.inl (by simp))⟩
  · refine .cons ⟨by simp, ?_, hb⟩ .nil
    unfold infoOf Objs.varInfo
    rw [objects_eq hn]; rfl
  · intro i hi
    obtain rfl : i = st.objs.length := by simpa using hi
    exact ⟨Nat.le_refl _, _, hn, rfl, rfl⟩
  · simp only [List.map_append, shapes_append st _ h.lt, List.map_cons, List.map_nil, objects_eq hn]
    rfl
  · simpa using h.subNames.1
  · intro v o hv
    obtain ⟨h1, h2, p, es, h3, h4, h5, h6, h7, h8⟩ := h.decomp v o hv
    refine ⟨h1, List.mem_append_left _ h2, p, es, getElem?_prefix hpre h3, h4, ?_⟩
    simp only [objects_append _ _ _ (h.env v h2).2.lt]
    refine ⟨h5, h6, h7.imp fun e w hw => ?_, h8⟩
    obtain ⟨q, h9, h10⟩ := hw
    exact ⟨q, getElem?_prefix hpre h9, h10⟩
  · intro i p sh es hi hb hp
    rcases getElem?_app_cases hi with hi | ⟨j, rfl, hj⟩
    · exact h.parts i p sh es hi hb hp
    · exact absurd ⟨sh, es, rfl⟩ (notPart rfl j p _ hj hp).1
  · intro v c val' hv
    simp only [Dict.get?_set] at hv
    have hnil : ∀ v, assignsTo (st.env ++ [st.objs.length]) v [(st.env.length, (Stmt.output name shape val : Stmt K F))] = [] := fun v => assignsTo_nil _ _ (by simp)
    split at hv
    · rename_i hv'
      subst hv'
      cases hv
      have hA : assignsTo (st.env ++ [st.objs.length]) st.objs.length (L ++ [(st.env.length, (Stmt.output name shape val : Stmt K F))]) = [] := by
        rw [assignsTo_append, hnil, List.append_nil, assignsTo_mono (List.prefix_append _ _) _ fun _ _ _ _ hs => (h.assignLt hs).1, List.eq_nil_iff_forall_not_mem]
        intro kx hk
        obtain ⟨n, z, _, h2⟩ := assignsTo_mem.1 hk
        exact absurd (h.lt _ (List.mem_of_getElem? h2)) (by omega)
      refine ⟨⟨st.env.length, name, by simp, by simp⟩, _, [], hn, rfl, rfl, rfl, rfl, ?_, .nil, by simp, Or.inl ⟨rfl, rfl, rfl⟩⟩
      rw [hA]
      exact .nil
    · exact (h.concat v c val' hv).mono hext (List.prefix_append _ _) h.lt (fun _ _ _ _ hs => h.assignLt hs) (fun p q h1 h2 => hsame v p q h1 h2 ▸ .refl _)
        (fun o p q k h1 h2 _ _ _ _ => hsame o p q h1 h2 ▸ .refl _) (hnil v)
  · intro n name' sh val' hs
    rcases List.mem_append.1 hs with hs | hs
    · obtain ⟨v, c, h1, h2, h3, h4⟩ := h.made n name' sh val' hs
      exact ⟨v, c, getElem?_prefix (List.prefix_append _ _) h1, by simp only [Dict.get?_set]; rw [if_neg (hold _ _ _ h2).symm]; exact h2, h3, List.mem_append_left _ h4⟩
    · obtain ⟨rfl, rfl, rfl, rfl⟩ : n = st.env.length ∧ name' = name ∧ sh = shape ∧ val' = val := by simpa using hs
      exact ⟨st.objs.length, { shape := sh }, by simp, by simp only [Dict.get?_set, if_true], rfl, by simp⟩
  · intro i p k hi hb hp hk
    rcases getElem?_app_cases hi with hi | ⟨j, rfl, hj⟩
    · obtain ⟨v, c, val, q, h1, h2, h3, h4⟩ := h.asms i p k hi hb hp hk
      exact ⟨v, c, val, q, h1, by simp only [Dict.get?_set]; rw [if_neg (hold _ _ _ h2).symm]; exact h2, getElem?_prefix hpre h3, h4⟩
    · exact absurd hk (notPart rfl j p _ hj hp).2

/-- a submodel is added -/
theorem Inv.add {objs0 : Foreign K F} {L : List (Nat × Stmt K F)} {S : List (Name × Option (List Name))} {st : St K F} (h : Inv objs0 L S st) (name : Name) (pr : Option (List Name))
    (hb : checkBannedChars name = true) (hn : name ∉ st.subs.map (·.2.1)) :
    Inv objs0 L (S ++ [(name, pr)])
      { st with objs := st.objs ++ [⟨{ kind := .model, name := name, auto := genHexName st.objs.length }, none, none⟩], subs := st.subs ++ [(st.objs.length, name, pr)] } := by
  have hn2 := getElem?_new st.objs (⟨{ kind := .model, name := name, auto := genHexName st.objs.length }, none, none⟩ : PObj K F) []
  rw [← List.append_nil L]
  refine h.extend (new := [⟨{ kind := .model, name := name, auto := genHexName st.objs.length }, none, none⟩]) (e := []) (in' := []) (de' := []) (su' := [(st.objs.length, name, pr)]) rfl (by simp) (by simp)
    (by simp) rfl rfl (by simp) (by simp) (Or.inl (by simp)) (fun x h1 h2 => absurd h1 (by simpa using h2)) ?_ .nil .nil rfl (by simp) (by simp) (by simp) ?_ rfl ?_ ?_ rfl (notPart rfl) rfl (by simp)
  · intro j p hj
    obtain ⟨rfl, rfl⟩ : j = 0 ∧ p = ⟨{ kind := .model, name := name, auto := genHexName st.objs.length }, none, none⟩ := by
      cases j with
      | zero => exact ⟨rfl, by simpa using hj.symm⟩
      | succ j => simp at hj
    exact ⟨.model rfl rfl rfl (by simp), rfl, Or.inr (Or.inr (Or.inr (Or.inl (by simp))))⟩
  · simp only [shapes_append st _ h.lt]
    rfl
  · exact .cons ⟨rfl, h.own (Nat.le_refl _), _, hn2, rfl, rfl⟩ .nil
  · refine ⟨?_, by simp [hb]⟩
    rw [List.map_append, List.nodup_append]
    refine ⟨h.subNames.1, by simp, ?_⟩
    rintro a ha b hbb rfl
    obtain rfl : a = name := by simpa using hbb
    apply hn
    obtain ⟨x, hx, rfl⟩ := List.mem_map.1 ha
    clear hb hn hn2 ha hbb
    have := h.subs
    generalize st.subs = l at this
    clear h
    induction this with
    | nil => simp at hx
    | cons h1 _ ih =>
      rcases List.mem_cons.1 hx with rfl | hx
      · simp [← h1.1]
      · exact List.mem_cons_of_mem _ (ih hx)

end Csdl.Prog
