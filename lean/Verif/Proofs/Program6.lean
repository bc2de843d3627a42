import Verif.Proofs.Program5
import Verif.Proofs.Names
/-
The objects of a program are well formed.
-/
namespace Csdl.Prog
open Csdl Csdl.Arith
variable {K F : Type} [Field K] [DecidableEq K]

theorem auto_like {k : Nat} (h : k < 63 ^ 4) : AutoLike (genHexName k) := by
  obtain ⟨d, h1, h2, h3, h4, h5, _⟩ := genHexLoop_spec k [] "_0000".toList
  have hp : "_0000".toList = ['_', '0', '0', '0', '0'] := by decide
  have hd : d.length ≤ 4 := by
    by_contra hc
    have := h5 (by omega)
    have h6 : 63 ^ 4 ≤ 63 ^ (d.length - 1) := Nat.pow_le_pow_right (by norm_num) (by omega)
    omega
  have e : genHexName k = (['_', '0', '0', '0', '0'] : List Char).take (5 - d.length) ++ d := by
    rw [genHexName, h1, List.append_nil, hp]; rfl
  rw [e]
  refine ⟨by simp; omega, ?_⟩
  obtain ⟨j, hj⟩ : ∃ j, 5 - d.length = j + 1 := ⟨4 - d.length, by omega⟩
  rw [hj]; rfl

theorem auto_inj {a c : Nat} (ha : a < 63 ^ 4) (hc : c < 63 ^ 4) (h : genHexName a = genHexName c) : a = c := by
  have e := congrArg decode h
  rw [genHexName_decode, genHexName_decode, if_pos ha, if_pos hc] at e
  omega

variable {objs : List (PObj K F)} {b : Body K F} {root : OModel} {Ls : List (List Name × Slot K F)}

/-- everything about one model -/
structure Ctx (objs : List (PObj K F)) (b : Body K F) (path : List Name) (s : Slot K F) (m : OModel) : Prop where
  inv : Inv s.before (s.body.stmts 0) s.body.added s.st
  pre : s.st.objs <+: objs
  mat : Matches m s
  at_ : BAt b path s.body
  defined : s.st.undefined = false

theorem Hier.ctx (h : Hier objs b root Ls) {path : List Name} {m : OModel} (hm : OAt (objects objs) root path m) : ∃ s, (path, s) ∈ Ls ∧ Ctx objs b path s m := by
  obtain ⟨s, hs, h1⟩ := h.toObj path m hm
  exact ⟨s, hs, (h.slots _ hs).1, (h.slots _ hs).2, h1, h.toBody _ hs, (h.nonEmpty _ hs).2⟩

theorem Hier.slot_unique (h : Hier objs b root Ls) {path path' : List Name} {s s' : Slot K F} (h1 : (path, s) ∈ Ls) (h2 : (path', s') ∈ Ls) {i : Nat} (hi : s.Has i) (hi' : s'.Has i) :
    path = path' ∧ s = s' := by
  have key : ∀ l : List (List Name × Slot K F), l.Pairwise (fun a c => ∀ i, a.2.Has i → ¬ c.2.Has i) → (path, s) ∈ l → (path', s') ∈ l → path = path' ∧ s = s' := by
    intro l hl
    induction hl with
    | nil => intro h3; simp at h3
    | cons h3 _ ih =>
      intro h4 h5
      rcases List.mem_cons.1 h4 with h6 | h6 <;> rcases List.mem_cons.1 h5 with h7 | h7
      · rw [← h7] at h6
        simpa using h6
      · subst h6
        exact absurd hi' (h3 _ h7 i hi)
      · subst h7
        exact absurd hi (h3 _ h6 i hi')
      · exact ih h6 h7
  exact key Ls h.order h1 h2

section one
variable {path : List Name} {s : Slot K F} {m : OModel}

theorem Ctx.get (c : Ctx objs b path s m) {i : Nat} (hi : s.Has i) : ∃ p, s.st.objs[i]? = some p ∧ objects objs i = p.obj ∧ Good s.before.Own (s.body.stmts 0) s.st i p :=
  ⟨_, List.getElem?_eq_getElem hi.2, by rw [prefix_objects c.pre hi.2, objects_eq (List.getElem?_eq_getElem hi.2)], c.inv.good i _ (List.getElem?_eq_getElem hi.2) hi.1⟩

theorem Ctx.obj (c : Ctx objs b path s m) {i : Nat} {p : PObj K F} (h : s.st.objs[i]? = some p) : objects objs i = p.obj := by
  rw [prefix_objects c.pre (lt_of_some h), objects_eq h]

theorem Ctx.input (c : Ctx objs b path s m) {i : Nat} (h : i ∈ m.inputs) : s.Has i ∧ (objects objs i).kind = .var ∧ (objects objs i).role = .input := by
  rw [c.mat.inputs] at h
  obtain ⟨h1, p, h2, h3⟩ := c.inv.inputRole i h
  exact ⟨⟨h1, lt_of_some h2⟩, by rw [c.obj h2]; exact h3⟩

theorem Ctx.output (c : Ctx objs b path s m) {i : Nat} (h : i ∈ m.outputs) : s.Has i ∧ (objects objs i).kind = .var ∧ (objects objs i).role = .output := by
  rw [c.mat.outputs] at h
  obtain ⟨h1, p, h2, h3⟩ := c.inv.outputRole i h
  exact ⟨⟨h1, lt_of_some h2⟩, by rw [c.obj h2]; exact h3⟩

theorem Ctx.decl (c : Ctx objs b path s m) {i : Nat} (h : i ∈ m.declared) : s.Has i ∧ (objects objs i).kind = .var ∧ (objects objs i).role = .declared := by
  rw [c.mat.declared] at h
  obtain ⟨h1, p, h2, h3⟩ := c.inv.declaredRole i h
  exact ⟨⟨h1, lt_of_some h2⟩, by rw [c.obj h2]; exact h3⟩

theorem Ctx.vars (c : Ctx objs b path s m) {i : Nat} (h : i ∈ m.vars) : s.Has i ∧ (objects objs i).kind = .var := by
  unfold OModel.vars at h
  simp only [List.mem_append] at h
  rcases h with (h | h) | h
  · exact ⟨(c.input h).1, (c.input h).2.1⟩
  · exact ⟨(c.output h).1, (c.output h).2.1⟩
  · exact ⟨(c.decl h).1, (c.decl h).2.1⟩

theorem Ctx.sub (c : Ctx objs b path s m) {i : Nat} (h : i ∈ m.subs.map OSub.id) : s.Has i ∧ (objects objs i).kind = .model ∧ ∃ x ∈ s.body.subs, (objects objs i).name = x.1 := by
  rw [c.mat.subs] at h
  obtain ⟨x, hx, rfl⟩ := List.mem_map.1 h
  obtain ⟨y, hy, h1, h2, p, h3, h4, h5⟩ := forall₂_mem_left c.inv.subs hx
  refine ⟨⟨h2, lt_of_some h3⟩, by rw [c.obj h3]; exact h4, ?_⟩
  obtain ⟨z, hz, rfl⟩ := List.mem_map.1 hy
  exact ⟨z, hz, by rw [c.obj h3]; exact h5⟩

theorem IsVar.kind (c : Ctx objs b path s m) {d : Nat} (h : IsVar s.st.objs d) : (objects objs d).kind = .var := by
  obtain ⟨p, h1, h2⟩ := h
  rw [c.obj h1]; exact h2

/-- variables: what they depend on -/
theorem Ctx.var (c : Ctx objs b path s m) {i : Nat} (hi : s.Has i) (hk : (objects objs i).kind = .var) :
    (objects objs i).outs = [] ∧ ∀ u ∈ (objects objs i).deps, s.Has u ∧ (objects objs u).kind = .op ∧ i ∈ (objects objs u).outs := by
  obtain ⟨p, h1, h2, hg⟩ := c.get hi
  rw [h2] at hk ⊢
  cases hg with
  | input a1 a2 a3 a4 => exact ⟨a4, by simp [a3]⟩
  | declared a1 a2 a3 a4 => exact ⟨a4, by simp [a3]⟩
  | concat a1 a2 a3 a4 => exact ⟨a4, by simp [a3]⟩
  | result o q a1 a2 a3 a4 a5 a7 a8 a9 =>
    refine ⟨a3, fun u hu => ?_⟩
    rw [a4] at hu
    obtain rfl : u = o := by simpa using hu
    exact ⟨⟨a5, lt_of_some a7⟩, by rw [c.obj a7]; exact a8, by rw [c.obj a7]; exact a9⟩
  | op a1 => rw [a1] at hk; cases hk
  | model a1 => rw [a1] at hk; cases hk

/-- operations: arguments and results -/
theorem Ctx.op (c : Ctx objs b path s m) {i : Nat} (hi : s.Has i) (hk : (objects objs i).kind = .op) :
    (∀ d ∈ (objects objs i).deps, s.Has d ∧ (objects objs d).kind = .var) ∧
    (∀ v ∈ (objects objs i).outs, s.Has v ∧ (objects objs v).kind = .var ∧ (objects objs v).role = .output ∧ (objects objs v).deps = [i]) ∧
    (objects objs i).outs.Nodup ∧
    ((∀ v ∈ (objects objs i).outs, ∃ n t x, (n, t) ∈ s.body.stmts 0 ∧ OpOf s.st.objs s.st.env n t i ∧ n ≤ x ∧ x < n + t.count ∧ s.st.env[x]? = some v) ∨ (∃ d ∈ s.st.env, CopyOp s.st.objs s.st.env i d) ∨
      ∃ p k, s.st.objs[i]? = some p ∧ p.op = some k ∧ k.IsAsm) := by
  obtain ⟨p, h1, h2, hg⟩ := c.get hi
  rw [h2] at hk ⊢
  cases hg with
  | input a1 => rw [a1] at hk; cases hk
  | declared a1 => rw [a1] at hk; cases hk
  | concat a1 => rw [a1] at hk; cases hk
  | result o q a1 => rw [a1] at hk; cases hk
  | op a1 a2 a3 a4 a5 =>
    refine ⟨fun d hd => ⟨⟨(a2 d hd).1, (a2 d hd).2.lt⟩, IsVar.kind c (a2 d hd).2⟩, fun v hv => ?_, a4, a5.imp id (Or.imp (fun ⟨d, b1, b2, _⟩ => ⟨d, b1, b2⟩) fun ⟨k, _, b1, b2, _⟩ => ⟨p, k, h1, b1, b2⟩)⟩
    obtain ⟨q, b1, b2, b3, b4, b5⟩ := a3 v hv
    refine ⟨⟨?_, lt_of_some b1⟩, by rw [c.obj b1]; exact ⟨b2, b3, b4⟩⟩
    rcases a5 with a5 | ⟨d, _, a5, a6⟩ | ⟨_, w, _, _, a6, a7, _⟩
    · obtain ⟨_, _, _, _, _, _, _, g3⟩ := a5 v hv
      exact (c.inv.env v (List.mem_of_getElem? g3)).1
    · obtain ⟨q', g1, _, _, _, g5⟩ := a5.op
      rw [h1] at g1
      cases g1
      rw [g5] at hv
      obtain rfl : v = i + 1 := by simpa using hv
      exact a6
    · rw [a6] at hv
      obtain rfl : v = w := by simpa using hv
      exact (c.inv.env v a7).1
  | model a1 => rw [a1] at hk; cases hk

theorem Ctx.needs (c : Ctx objs b path s m) {i : Nat} (h : m.Needs (objects objs) i) : s.Has i ∧ (objects objs i).kind ≠ .model := by
  unfold OModel.Needs at h
  induction h with
  | leaf i hi =>
    rcases List.mem_append.1 hi with hi | hi
    · exact ⟨(c.output hi).1, by rw [(c.output hi).2.1]; decide⟩
    · exact ⟨(c.decl hi).1, by rw [(c.decl hi).2.1]; decide⟩
  | dep v u _ hu ih =>
    have hu : u ∈ (objects objs v).deps := hu
    cases hk : (objects objs v).kind with
    | var => have := (c.var ih.1 hk).2 u hu; exact ⟨this.1, by rw [this.2.1]; decide⟩
    | op => have := (c.op ih.1 hk).1 u hu; exact ⟨this.1, by rw [this.2]; decide⟩
    | model => exact absurd hk ih.2
  | out u v _ hk hv ih =>
    have := (c.op ih.1 hk).2.1 v hv
    exact ⟨this.1, by rw [this.2.1]; decide⟩

theorem Ctx.local_ (c : Ctx objs b path s m) : (m.inputs ++ m.outputs).map (fun i => (objects objs i).name) = s.body.locals.sources.map VarInfo.name ∧
    m.declared.map (fun i => (objects objs i).name) = s.body.locals.declared.map VarInfo.name := by
  have := slot_locals (s := s) (objs := objs) ⟨c.inv, c.pre⟩
  rw [← this, c.mat.inputs, c.mat.outputs, c.mat.declared]
  simp [Local.sources, Objs.varInfo, Function.comp_def]

theorem Ctx.varName (c : Ctx objs b path s m) {i : Nat} (h : i ∈ m.vars) : ∃ w ∈ s.body.locals.sources ++ s.body.locals.declared, (objects objs i).name = w.name := by
  have h1 : (objects objs i).name ∈ (s.body.locals.sources ++ s.body.locals.declared).map VarInfo.name := by
    rw [List.map_append, ← c.local_.1, ← c.local_.2, ← List.map_append]
    exact List.mem_map_of_mem h
  obtain ⟨w, hw, e⟩ := List.mem_map.1 h1
  exact ⟨w, hw, e.symm⟩

/-- the name of an object -/
theorem Ctx.name (c : Ctx objs b path s m) {i : Nat} (hi : s.Has i) (hk : (objects objs i).kind ≠ .model) : (objects objs i).auto = genHexName i ∧
    (i ∉ m.vars → (objects objs i).name = genHexName i) := by
  obtain ⟨p, h1, h2, hg⟩ := c.get hi
  have ha := c.inv.autos i p h1 hi.1
  refine ⟨by rw [h2]; exact ha, fun hv => ?_⟩
  unfold OModel.vars at hv
  rw [c.mat.inputs, c.mat.outputs, c.mat.declared] at hv
  simp only [List.mem_append, not_or] at hv
  rw [h2, ← ha]
  rcases c.inv.names i p h1 hi.1 with h3 | h3 | h3 | h3 | h3
  · exact absurd h3 hv.1.1
  · exact absurd h3 hv.1.2
  · exact absurd h3 hv.2
  · exfalso
    rw [← c.mat.subs] at h3
    exact hk (c.sub h3).2.1
  · exact h3

theorem Ctx.userName (c : Ctx objs b path s m) (hg : GoodNames b) {i : Nat} (h : i ∈ m.vars) : ¬ AutoLike (objects objs i).name := by
  obtain ⟨w, hw, e⟩ := c.varName h
  rw [e]
  exact hg.notAuto path s.body c.at_ w hw

end one

theorem nodup_map_inj {α β : Type} {f : α → β} : ∀ {l : List α}, (l.map f).Nodup → ∀ a ∈ l, ∀ c ∈ l, f a = f c → a = c
  | [], _, a, ha, _, _, _ => by simp at ha
  | x :: l, h, a, ha, c, hc, e => by
    rw [List.map_cons, List.nodup_cons] at h
    rcases List.mem_cons.1 ha with h1 | h1 <;> rcases List.mem_cons.1 hc with h2 | h2
    · rw [h1, h2]
    · exact absurd (List.mem_map.2 ⟨c, h2, by rw [← e, h1]⟩) h.1
    · exact absurd (List.mem_map.2 ⟨a, h1, by rw [e, h2]⟩) h.1
    · exact nodup_map_inj h.2 a h1 c h2 e

theorem closed_objects {objs : List (PObj K F)} (h : Closed objs) {i u : Nat} (hi : i < objs.length) (hu : u ∈ (objects objs i).deps ++ (objects objs i).outs) : u < objs.length := by
  refine h _ (List.getElem_mem hi) u ?_
  simpa [objects, List.getElem?_eq_getElem hi] using hu

/-- the objects of a program refer to objects that exist -/
theorem runFrom_closed {pre objs : List (PObj K F)} (hp : Closed pre) (h : runFrom pre b = .ok (objs, root)) : Closed objs := by
  obtain ⟨Ls, hh, hpre, hall, hslots⟩ := runFrom_hier h List.prefix_rfl
  intro p hp0 u hu
  obtain ⟨i, hi, rfl⟩ := List.getElem_of_mem hp0
  have hobj : objects objs i = objs[i].obj := by simp [objects, List.getElem?_eq_getElem hi]
  by_cases hc : i < pre.length
  · refine Nat.lt_of_lt_of_le (hp _ (List.getElem_mem hc) u ?_) hpre.length_le
    rw [hpre.getElem hc]
    exact hu
  · obtain ⟨x, hx, hx1⟩ := hall i (by omega) hi
    obtain ⟨m', _, h3⟩ := hh.ofObj x hx
    have cx : Ctx objs b x.1 x.2 m' := ⟨(hh.slots x hx).1, (hh.slots x hx).2, h3, hh.toBody x hx, (hh.nonEmpty x hx).2⟩
    rw [← hobj] at hu
    have : x.2.Has u := by
      rcases List.mem_append.1 hu with hu | hu
      · cases hk : (objects objs i).kind with
        | var => exact ((cx.var hx1 hk).2 u hu).1
        | op => exact ((cx.op hx1 hk).1 u hu).1
        | model =>
          obtain ⟨p, h1, h2, hgd⟩ := cx.get hx1
          rw [h2] at hk hu
          cases hgd <;> simp_all
      · cases hk : (objects objs i).kind with
        | var => rw [(cx.var hx1 hk).1] at hu; simp at hu
        | op => exact ((cx.op hx1 hk).2.1 u hu).1
        | model =>
          obtain ⟨p, h1, h2, hgd⟩ := cx.get hx1
          rw [h2] at hk hu
          cases hgd <;> simp_all
    exact Nat.lt_of_lt_of_le this.2 cx.pre.length_le

theorem modelOk (h : Hier objs b root Ls) (hg : GoodNames b) (hcl : Closed objs) (hn : objs.length ≤ 63 ^ 4) {path : List Name} {m : OModel} (hm : OAt (objects objs) root path m) :
    ModelOk (objects objs) objs.length m := by
  obtain ⟨s, hs, c⟩ := h.ctx hm
  have hlt : ∀ {i : Nat}, s.Has i → i < objs.length := fun hi => Nat.lt_of_lt_of_le hi.2 c.pre.length_le
  have hlt4 : ∀ {i : Nat}, s.Has i → i < 63 ^ 4 := fun hi => Nat.lt_of_lt_of_le (hlt hi) hn
  have hown : ∀ {i : Nat}, m.Needs (objects objs) i ∨ i ∈ m.inputs → s.Has i ∧ (objects objs i).kind ≠ .model := by
    rintro i (hi | hi)
    · exact c.needs hi
    · exact ⟨(c.input hi).1, by rw [(c.input hi).2.1]; decide⟩
  constructor
  case bounded =>
    constructor
    · intro i hi
      exact hlt (c.needs (.leaf i hi)).1
    · exact fun i hi u hu => closed_objects hcl hi (List.mem_append_left _ hu)
    · exact fun i hi u hu => closed_objects hcl hi (List.mem_append_right _ hu)
  case names =>
    refine ⟨fun i hi => (c.needs hi).2, fun i hi => (c.input hi).2.1, ?_, ?_⟩
    · intro a d ha hd e hk
      have e : (objects objs a).name = (objects objs d).name := e
      have hk : (objects objs a).kind = .op := hk
      have h1 := hown ha
      have h2 := hown hd
      have hav : a ∉ m.vars := fun hv => by rw [(c.vars hv).2] at hk; cases hk
      rw [(c.name h1.1 h1.2).2 hav] at e
      by_cases hdv : d ∈ m.vars
      · exact absurd (e ▸ auto_like (hlt4 h1.1)) (c.userName hg hdv)
      · rw [(c.name h2.1 h2.2).2 hdv] at e
        exact auto_inj (hlt4 h1.1) (hlt4 h2.1) e
    · intro t ht i hi e
      have e : (objects objs t).name = (objects objs i).name := e
      obtain ⟨x, hx, h1⟩ := (c.sub ht).2.2
      obtain ⟨g1, g2, g3⟩ := hg.subs path s.body c.at_ x hx
      have h2 := hown hi
      by_cases hv : i ∈ m.vars
      · obtain ⟨w, hw, h3⟩ := c.varName hv
        rw [h1, h3] at e
        exact g3 (e ▸ List.mem_map_of_mem hw)
      · rw [h1, (c.name h2.1 h2.2).2 hv] at e
        exact g2 (e ▸ auto_like (hlt4 h2.1))
  case subKinds => exact fun x hx => (c.sub (List.mem_map_of_mem hx)).2.1
  case inputRole => exact fun i hi => (c.input hi).2.2
  case outputRole => exact fun i hi => (c.output hi).2
  case declaredRole => exact fun i hi => (c.decl hi).2
  case varDeps => exact fun i hi hk u hu => ((c.var (c.needs hi).1 hk).2 u hu).2
  case opDeps => exact fun i hi hk => ⟨fun u hu => ((c.op (c.needs hi).1 hk).1 u hu).2, fun v hv => ⟨((c.op (c.needs hi).1 hk).2.1 v hv).2.1, ((c.op (c.needs hi).1 hk).2.1 v hv).2.2.1⟩⟩
  case userNamed =>
    intro i hi e
    have h1 := c.vars hi
    rw [(c.name h1.1 (by rw [h1.2]; decide)).1] at e
    exact c.userName hg hi (e ▸ auto_like (hlt4 h1.1))
  case autoNamed =>
    intro i hi _ hv
    have h1 := c.needs hi
    rw [(c.name h1.1 h1.2).1, (c.name h1.1 h1.2).2 hv]
  case sources =>
    rw [List.nodup_append, c.mat.inputs, c.mat.outputs]
    refine ⟨c.inv.inputsNodup, c.inv.outputsNodup, ?_⟩
    rintro a ha d hd rfl
    have h1 := (c.input (c.mat.inputs ▸ ha)).2.2
    rw [(c.output (c.mat.outputs ▸ hd)).2.2] at h1
    cases h1
  case sourceNames =>
    intro i hi i' hi' e
    have hnd := hg.sources path s.body c.at_
    rw [← c.local_.1] at hnd
    have hdecl : ∀ d ∈ m.declared, ∀ x ∈ m.inputs ++ m.outputs, (objects objs d).name ≠ (objects objs x).name := by
      intro d hd x hx e
      have h1 : (objects objs d).name ∈ s.body.locals.declared.map VarInfo.name := by
        rw [← c.local_.2]
        exact List.mem_map_of_mem (f := fun i => (objects objs i).name) hd
      obtain ⟨w, hw, h2⟩ := List.mem_map.1 h1
      refine (hg.declared path s.body c.at_ w hw).2 ?_
      rw [h2, e, ← c.local_.1]
      exact List.mem_map_of_mem (f := fun i => (objects objs i).name) hx
    rcases List.mem_append.1 hi with h1 | h1 <;> rcases List.mem_append.1 hi' with h2 | h2
    · exact Or.inl (nodup_map_inj hnd i h1 i' h2 e)
    · exact absurd e.symm (hdecl i' h2 i h1)
    · exact absurd e (hdecl i h1 i' h2)
    · exact Or.inr ⟨h1, h2⟩

omit [Field K] [DecidableEq K] in
theorem BAt.locals {b : Body K F} {path : List Name} {M : Model} (h : At b.toModel path M) : ∃ b', BAt b path b' ∧ M = b'.toModel := by
  generalize hM : b.toModel = M0 at h
  induction h generalizing b with
  | here => exact ⟨b, .here _, hM.symm⟩
  | @down l subs path m' t ht _ ih =>
    have hsub : ∀ (b0 : Body K F), t ∈ b0.toSubs.toList → ∃ x ∈ b0.subs, t.name = x.1 ∧ t.model = x.2.2.toModel := by
      intro b0
      induction b0 with
      | done => intro hh; simp [Body.toSubs, Subs.toList] at hh
      | stmt _ rest ih => exact ih
      | add _ n p sub rest _ ih =>
        intro hh
        simp only [Body.toSubs, Subs.toList, List.mem_cons] at hh
        rcases hh with rfl | hh
        · exact ⟨(n, p, sub), by simp [Body.subs], rfl, rfl⟩
        · obtain ⟨x, hx, h1⟩ := ih hh
          exact ⟨x, by simp [Body.subs, hx], h1⟩
    have : subs = b.toSubs := by
      unfold Body.toModel at hM
      injection hM with _ h2
      exact h2.symm
    subst this
    obtain ⟨x, hx, h1, h2⟩ := hsub b ht
    obtain ⟨b', h3, h4⟩ := ih h2.symm
    exact ⟨b', h1 ▸ .down hx h3, h4⟩

omit [Field K] [DecidableEq K] in
theorem toSubs_names (b : Body K F) : b.toSubs.toList.map Subgraph.name = b.added.map (·.1) := by
  induction b with
  | done => rfl
  | stmt _ rest ih => exact ih
  | add _ n p sub rest _ ih => simpa [Body.toSubs, Subs.toList, Body.added, Body.subs] using ih

omit [Field K] [DecidableEq K] in
theorem toSubs_mem {b : Body K F} {t : Subgraph} (h : t ∈ b.toSubs.toList) : ∃ x ∈ b.subs, t.name = x.1 ∧ t.promotes = x.2.1 ∧ t.model = x.2.2.toModel := by
  induction b with
  | done => simp [Body.toSubs, Subs.toList] at h
  | stmt _ rest ih => exact ih h
  | add _ n p sub rest _ ih =>
    simp only [Body.toSubs, Subs.toList, List.mem_cons] at h
    rcases h with rfl | h
    · exact ⟨(n, p, sub), by simp [Body.subs], rfl, rfl, rfl⟩
    · obtain ⟨x, hx, h1⟩ := ih h
      exact ⟨x, by simp [Body.subs, hx], h1⟩

theorem forall₂_banned_left {α β : Type} {R : α → β → Prop} {l : List α} {l' : List β} (h : List.Forall₂ R l l') {P : β → Prop} (hR : ∀ a c, R a c → P c) : ∀ c ∈ l', P c := by
  intro c hc
  obtain ⟨a, _, h1⟩ := forall₂_mem_right h hc
  exact hR a c h1

theorem Hier.dotFree (h : Hier objs b root Ls) (hg : GoodNames b) : DotFree b.toModel := by
  intro path l subs hat
  obtain ⟨b', hb', he⟩ := BAt.locals hat
  obtain ⟨s, hs, rfl⟩ := h.ofBody path b' hb'
  obtain ⟨hinv, hpre⟩ := h.slots _ hs
  simp only at hinv hpre
  obtain ⟨rfl, rfl⟩ : l = s.body.locals ∧ subs = s.body.toSubs := by
    unfold Body.toModel at he
    injection he with h1 h2
    exact ⟨h1, h2⟩
  refine ⟨?_, ?_, ?_⟩
  · intro k v hv
    cases k with
    | source =>
      have hv : v ∈ s.body.locals.inputs ++ s.body.locals.outputs := hv
      rcases List.mem_append.1 hv with hv | hv
      · obtain ⟨x, hx, rfl⟩ := List.mem_map.1 hv
        exact banned_no_dot (forall₂_banned_left hinv.inputs (P := fun x => checkBannedChars x.2.1 = true) (fun _ _ h => h.2.2) x hx)
      · obtain ⟨x, hx, rfl⟩ := List.mem_map.1 hv
        exact banned_no_dot (forall₂_banned_left hinv.outputs (P := fun x => checkBannedChars x.2 = true) (fun _ _ h => h.2.2) x hx)
    | target => exact (hg.declared path s.body hb' v hv).1
  · intro t ht
    obtain ⟨x, hx, h1, _⟩ := toSubs_mem ht
    rw [h1]
    exact ⟨(hg.subs path s.body hb' x hx).1, banned_no_dot (hinv.subNames.2 (x.1, x.2.1) (List.mem_map.2 ⟨x, hx, rfl⟩))⟩
  · rw [toSubs_names]
    exact hinv.subNames.1

theorem objectsOk (h : Hier objs b root Ls) (hg : GoodNames b) (hcl : Closed objs) (hn : objs.length ≤ 63 ^ 4) : ObjectsOk (objects objs) objs.length root := by
  refine ⟨fun path m hm => modelOk h hg hcl hn hm, ?_, ?_, ?_⟩
  · rw [h.names]
    exact h.dotFree hg
  · intro path m path' m' hm hm' i hi hi'
    obtain ⟨s, hs, c⟩ := h.ctx hm
    obtain ⟨s', hs', c'⟩ := h.ctx hm'
    have hown : ∀ {path : List Name} {m : OModel} {s : Slot K F}, Ctx objs b path s m → m.Owns (objects objs) i → s.Has i := by
      rintro path m s c (hi | hi | hi)
      · exact (c.input hi).1
      · exact (c.needs hi).1
      · exact (c.sub hi).1
    exact (h.slot_unique hs hs' (hown c hi) (hown c' hi')).1
  · intro path m hm i hi hk hv
    obtain ⟨s, hs, c⟩ := h.ctx hm
    have h1 := c.needs hi
    have hname := (c.name h1.1 h1.2).2 hv
    have hlt : i < 63 ^ 4 := Nat.lt_of_lt_of_le (Nat.lt_of_lt_of_le h1.1.2 c.pre.length_le) hn
    rw [hname]
    refine ⟨banned_no_dot (genHexName_banned i), ?_⟩
    intro path' m' hm' i' hi' e
    obtain ⟨s', hs', c'⟩ := h.ctx hm'
    have h2 : s'.Has i' ∧ (objects objs i').kind ≠ .model := by
      rcases hi' with hi' | hi'
      · exact ⟨(c'.vars hi').1, by rw [(c'.vars hi').2]; decide⟩
      · exact c'.needs hi'.1
    have hlt' : i' < 63 ^ 4 := Nat.lt_of_lt_of_le (Nat.lt_of_lt_of_le h2.1.2 c'.pre.length_le) hn
    by_cases hv' : i' ∈ m'.vars
    · exact absurd (e ▸ auto_like hlt) (c'.userName hg hv')
    · rw [(c'.name h2.1 h2.2).2 hv'] at e
      exact Or.inl (auto_inj hlt' hlt e)

end Csdl.Prog
