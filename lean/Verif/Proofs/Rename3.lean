import Verif.Proofs.Rename2
/-
Renaming (C101): a valid program stays valid, and its solutions are those of the original.
-/
namespace Csdl.Prog
open Csdl Csdl.Arith
variable {K F : Type}

/-- an issued connection, with other names -/
def renC (r : Name → Name) (i : List Name × Name × Name) : List Name × Name × Name := (i.1.map r, r i.2.1, r i.2.2)

theorem issued_rename (r : Name ≃ Name) (b : Body K F) : issuedPost Local.connections (b.rename r).toModel = (issuedPost Local.connections b.toModel).map (renC r) := by
  have sub : issuedPostSubs Local.connections (b.rename r).toSubs = (issuedPostSubs Local.connections b.toSubs).map (renC r) := by
    induction b with
    | done => rfl
    | stmt s rest ih => exact ih
    | add i n p sub rest ih1 ih2 =>
      simp only [Body.rename, Body.toSubs, issuedPostSubs, issuedPost, ih1, ih2, locals_rename, List.map_append, List.map_map]
      simp [Function.comp_def, renC]
  unfold Body.toModel
  simp only [issuedPost, sub, List.map_append, locals_rename, List.map_map]
  simp [Function.comp_def, renC]

section
variable {r : Name ≃ Name} (R : Renaming r) {b : Body K F}

theorem sources_rename : (b.rename r).locals.sources = b.locals.sources.map (renV r) := vars_rename r b .source
theorem declared_rename : (b.rename r).locals.declared = b.locals.declared.map (renV r) := vars_rename r b .target
theorem names_rename (l : List VarInfo) : (l.map (renV r)).map VarInfo.name = (l.map VarInfo.name).map r := by simp [Function.comp_def, renV]

include R

theorem Renaming.notAuto {n : Name} (hn : '.' ∉ n) (h : ¬ AutoLike n) : ¬ AutoLike (r n) := fun h' => h ((R.auto n hn).2 h')

theorem goodNames_rename [Zero K] (hv : NamesValid b) (h : GoodNames b) : GoodNames (b.rename r) where
  sources := by
    intro path c hc
    obtain ⟨path0, c0, rfl, rfl, h0⟩ := bat_inv r hc
    rw [sources_rename, names_rename]
    exact (h.sources _ _ h0).map r.injective
  declared := by
    intro path c hc
    obtain ⟨path0, c0, rfl, rfl, h0⟩ := bat_inv r hc
    rw [sources_rename, declared_rename, names_rename]
    intro w hw
    obtain ⟨w0, h1, rfl⟩ := List.mem_map.1 hw
    obtain ⟨h2, h3⟩ := h.declared _ _ h0 _ h1
    refine ⟨(R.undotted _).1 h2, fun hm => h3 ?_⟩
    obtain ⟨a, ha, e⟩ := List.mem_map.1 hm
    rwa [r.injective e] at ha
  notAuto := by
    intro path c hc
    obtain ⟨path0, c0, rfl, rfl, h0⟩ := bat_inv r hc
    rw [sources_rename, declared_rename, ← List.map_append]
    intro w hw
    obtain ⟨w0, h1, rfl⟩ := List.mem_map.1 hw
    have hd := dotFree_body (hv.sub h0).methods (hv.sub h0).names [] _ _ (.here _)
    refine R.notAuto ?_ (h.notAuto _ _ h0 _ h1)
    rcases List.mem_append.1 h1 with h1 | h1
    · exact hd.1 .source _ h1
    · exact hd.1 .target _ h1
  subs := by
    intro path c hc
    obtain ⟨path0, c0, rfl, rfl, h0⟩ := bat_inv r hc
    rw [sources_rename, declared_rename, ← List.map_append, names_rename, Body.rename_subs]
    intro s hs
    obtain ⟨s0, h1, rfl⟩ := List.mem_map.1 hs
    obtain ⟨h2, h3, h4⟩ := h.subs _ _ h0 _ h1
    have hd := (dotFree_body (hv.sub h0).methods (hv.sub h0).names [] _ _ (.here _)).2.1 ⟨s0.1, s0.2.1, s0.2.2.toModel⟩ (mem_toSubs.2 ⟨_, h1, rfl⟩)
    refine ⟨mt (R.ne).2 h2, R.notAuto hd.2 h3, fun hm => h4 ?_⟩
    obtain ⟨a, ha, e⟩ := List.mem_map.1 hm
    rwa [r.injective e] at ha

theorem connectionOk_rename {path : List Name} {a c : Name} (h : ConnectionOk b (fullName path a) (fullName path c)) : ConnectionOk (b.rename r) (fullName (path.map r) (r a)) (fullName (path.map r) (r c)) := by
  obtain ⟨p, q, h1, h2, ⟨p1, w, h3⟩, ⟨p2, x, h4⟩, h5, h6⟩ := h
  refine ⟨r p, r q, (denotes_full R).2 h1, (denotes_full R).2 h2, ⟨_, _, promoted_rename R h3⟩, ⟨_, _, hasName_rename R h4⟩, ?_, ?_⟩
  · intro path' b' w hb hw hp
    obtain ⟨path0, c0, rfl, rfl, h0⟩ := bat_inv r hb
    rw [locals_rename] at hw
    obtain ⟨w0, hw0, rfl⟩ := List.mem_map.1 hw
    obtain ⟨path1, w1, q1, e1, e2, e3, hp'⟩ := promoted_inv R hp
    have e1' : path0 = path1 := List.map_injective_iff.2 r.injective e1
    have e2' : w0 = w1 := by
      have := congrArg (renV r.symm) e2
      rwa [renV_symm', renV_symm'] at this
    rw [← e1', ← e2', ← r.injective e3] at hp'
    exact h5 _ _ _ h0 hw0 hp'
  · intro k pa w k' pa' w' g1 g2
    obtain ⟨_, w1, q1, _, rfl, e1, g1'⟩ := promoted_inv R g1
    obtain ⟨_, w2, q2, _, rfl, e2, g2'⟩ := promoted_inv R g2
    rw [← r.injective e1] at g1'
    rw [← r.injective e2] at g2'
    exact h6 _ _ w1 _ _ w2 g1' g2'

/-- A valid program with other names is valid. -/
theorem ValidProgram.renamed [Zero K] (h : ValidProgram b) : ValidProgram (b.rename r) where
  methods := by
    intro path c hc
    obtain ⟨path0, c0, rfl, rfl, h0⟩ := bat_inv r hc
    exact methodOk_rename R (h.methods _ _ h0)
  names := goodNames_rename R h.namesValid h.names
  oneSource := by
    intro path c hc p path1 v1 path2 v2 h1 h2
    obtain ⟨path0, c0, rfl, rfl, h0⟩ := bat_inv r hc
    obtain ⟨q1, w1, p1, rfl, rfl, rfl, h1'⟩ := promoted_inv R h1
    obtain ⟨q2, w2, p2, rfl, rfl, e, h2'⟩ := promoted_inv R h2
    rw [r.injective e] at h1'
    rw [h.oneSource _ _ h0 _ _ _ _ _ h1' h2']
  sizes := by
    intro path c hc p k1 path1 v1 k2 path2 v2 h1 h2 hne
    obtain ⟨path0, c0, rfl, rfl, h0⟩ := bat_inv r hc
    obtain ⟨q1, w1, p1, rfl, rfl, rfl, h1'⟩ := promoted_inv R h1
    obtain ⟨q2, w2, p2, rfl, rfl, e, h2'⟩ := promoted_inv R h2
    rw [r.injective e] at h1'
    exact h.sizes _ _ h0 _ _ q1 w1 _ q2 w2 h1' h2' fun e => hne (by rw [e])
  promotes := by
    intro path c hc n q sub hs x hx
    obtain ⟨path0, c0, rfl, rfl, h0⟩ := bat_inv r hc
    rw [Body.rename_subs] at hs
    obtain ⟨⟨n0, q0, sub0⟩, hs0, e⟩ := List.mem_map.1 hs
    obtain ⟨e1, e2⟩ := Prod.mk.inj e
    obtain ⟨e4, e3⟩ := Prod.mk.inj e2
    clear e2
    simp only at e1 e4 e3
    subst e1 e3
    obtain ⟨l, rfl, rfl⟩ := Option.map_eq_some_iff.1 e4
    obtain ⟨x0, hx0, rfl⟩ := List.mem_map.1 hx
    obtain ⟨h1, path', k, v, h2⟩ := h.promotes _ _ h0 _ _ _ hs0 _ hx0
    exact ⟨(R.undotted _).1 h1, _, k, _, promoted_rename R h2⟩
  connections := by
    intro path c a d hc hm
    obtain ⟨path0, c0, rfl, rfl, h0⟩ := bat_inv r hc
    rw [locals_rename] at hm
    obtain ⟨⟨a0, d0⟩, hm0, e⟩ := List.mem_map.1 hm
    cases e
    exact connectionOk_rename R (h.connections _ _ _ _ h0 hm0)
  oneConnection := by
    rw [issued_rename, List.pairwise_map]
    refine h.oneConnection.imp fun {i j} hij q h1 h2 => ?_
    simp only [renC] at h1 h2
    have h1' := h1
    rw [← R.full] at h1'
    obtain ⟨q0, rfl, _⟩ := denotes_inv R h1'
    exact hij q0 ((denotes_full R).1 h1) ((denotes_full R).1 h2)
  noChain := by
    refine ⟨?_, ?_⟩
    · intro i hi p h1 h2
      rw [issued_rename] at hi
      obtain ⟨i0, hi0, rfl⟩ := List.mem_map.1 hi
      simp only [renC] at h1 h2
      have h1' := h1
      rw [← R.full] at h1'
      obtain ⟨q0, rfl, _⟩ := denotes_inv R h1'
      exact h.noChain.1 _ hi0 q0 ((denotes_full R).1 h1) ((denotes_full R).1 h2)
    · rw [issued_rename, List.pairwise_map]
      refine h.noChain.2.imp fun {i j} hij q h1 h2 => ?_
      simp only [renC] at h1 h2
      have h1' := h1
      rw [← R.full] at h1'
      obtain ⟨q0, rfl, _⟩ := denotes_inv R h1'
      exact hij q0 ((denotes_full R).1 h1) ((denotes_full R).1 h2)
  acyclic := by
    intro hc
    have := circular_rename R.symm hc
    rw [Body.rename_symm] at this
    exact h.acyclic this

/-- Values that solve a program with other names solve the program. -/
theorem Solution.unrename [Field K] {P : Power K} {den : F → List (Val K) → Nat → Val K} {ρ : List Name → Nat → Val K} (h : Prog.Solution P den (b.rename r) ρ) :
    Prog.Solution P den b fun path x => ρ (path.map r) x where
  expr := fun path c hc n i hi hl => h.expr _ _ (bat_rename r _ hc) n i (has_rename r _ hi) (live_rename r _ hl)
  call := fun path c hc n f args outs hi j hj hl => h.call _ _ (bat_rename r _ hc) n f args outs (has_rename r _ hi) j hj (live_rename r _ hl)
  index := fun path c hc n x key hi hl => by
    have := h.index _ _ (bat_rename r _ hc) n x key (has_rename r _ hi) (live_rename r _ hl)
    rwa [shapes_rename] at this
  output := fun path c hc y name shape val hi => by
    have ha : ∀ key x, (c.rename r).Assigned y key x → c.Assigned y key x := by
      intro key x hx
      have := assigned_rename r.symm _ hx
      rwa [Body.rename_symm] at this
    have := h.output _ _ (bat_rename r _ hc) y (r name) shape val (has_rename r _ hi)
    exact ⟨fun key x idx shp hx => this.1 key x idx shp (assigned_rename r _ hx), fun i hi => this.2 i fun key x idx shp hx => hi key x idx shp (ha _ _ hx)⟩
  shared := fun path x path' y p h1 h2 => h.shared _ _ _ _ _ (hasName_rename R h1) (hasName_rename R h2)
  connected := fun path c hc s t p q hm h1 h2 path1 x path2 y h3 h4 =>
    h.connected _ _ (bat_rename r _ hc) _ _ _ _ (connections_mem_rename hm) ((denotes_full R).2 h1) ((denotes_full R).2 h2) _ _ _ _ (hasName_rename R h3) (hasName_rename R h4)

end

theorem maxObjects_rename (r : Name → Name) (b : Body K F) : (b.rename r).maxObjects = b.maxObjects := by
  induction b with
  | done => rfl
  | stmt s rest ih => simp only [Body.rename, Body.maxObjects, ih]; cases s <;> rfl
  | add i n p sub rest ih1 ih2 => simp only [Body.rename, Body.maxObjects, ih1, ih2]

theorem assigns_rename (r : Name ≃ Name) {b : Body K F} (h : (b.rename r).Assigns) : b.Assigns := by
  obtain ⟨path, c, n, z, key, x, h1, h2⟩ := h
  obtain ⟨path0, c0, rfl, rfl, h0⟩ := bat_inv r h1
  have := has_rename r.symm _ h2
  rw [Body.rename_symm] at this
  exact ⟨path0, c0, n, z, key, x, h0, this⟩

end Csdl.Prog
