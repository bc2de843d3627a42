import Verif.Proofs.Shared
import Verif.Props.Compile
import Verif.Props.Valid
import Verif.Props.Cycle
/-
C89: a model object used as several submodels behaves like as many separate models.
-/
namespace Csdl

variable {H : Objs} {n : Nat} {root : OModel}

/-- the number of the use at a path, the path of a use -/
theorem use_numbers (hok : SharedOk H n root) : ∃ (use : List Name → Nat) (path : Nat → List Name), (∀ p m, OAt H root p m → UseAt H root 0 p (use p) m ∧ path (use p) = p) := by
  classical
  refine ⟨fun p => if h : ∃ k m, UseAt H root 0 p k m then h.choose else 0, fun k => if h : ∃ p m, UseAt H root 0 p k m then h.choose else [], ?_⟩
  intro p m hm
  obtain ⟨k, hk⟩ := hm.use 0
  have h1 : ∃ k m, UseAt H root 0 p k m := ⟨k, m, hk⟩
  have e1 : h1.choose = k := by
    obtain ⟨m', hm'⟩ := h1.choose_spec
    exact (hm'.det hok.dotFree hk).1
  have h2 : ∃ p m, UseAt H root 0 p k m := ⟨p, m, hk⟩
  have e2 : h2.choose = p := by
    obtain ⟨m', hm'⟩ := h2.choose_spec
    exact (hm'.inj hk).1
  dsimp only
  constructor
  · rw [dif_pos h1, e1]; exact hk
  · rw [dif_pos h1, e1, dif_pos h2, e2]

theorem eqvGen_map {α β : Type} {r : α → α → Prop} {s : β → β → Prop} (g : α → β) (h : ∀ a b, r a b → s (g a) (g b)) {a b : α} (hab : Relation.EqvGen r a b) : Relation.EqvGen s (g a) (g b) := by
  induction hab with
  | rel a b h' => exact .rel _ _ (h a b h')
  | refl a => exact .refl _
  | symm a b _ ih => exact .symm _ _ ih
  | trans a b c _ _ ih1 ih2 => exact .trans _ _ _ ih1 ih2

/-- what the meaning of an operation is for its node in some use -/
def liftFn {V : Type} (n : Nat) (fn : Nat → List V → Nat → V) : Nat → List V → Nat → V := fun j args v => fn (j % n) args (v % n)

section
variable {use : List Name → Nat} {pathOf : Nat → List Name} (hok : SharedOk H n root) (hu : ∀ p m, OAt H root p m → UseAt H root 0 p (use p) m ∧ pathOf (use p) = p)
include hok hu

theorem named_unfold {j : Nat} {p : Name} : NamedVar (H.uses n) (root.unfold n 0) j p ↔ ∃ path x, j = use path * n + x ∧ x < n ∧ NamedAt H root path x p := by
  constructor
  · rintro ⟨path, m', k, w, h1, h2, h3, h4, h5⟩
    obtain ⟨k1, m, u1, rfl⟩ := h1.ofUnfold rfl hok.below
    obtain ⟨u2, _⟩ := hu path m u1.oat
    obtain ⟨rfl, _⟩ := u1.det hok.dotFree u2
    rw [OModel.unfold_vars] at h2
    obtain ⟨x, hx, rfl⟩ := List.mem_map.1 h2
    have hx' := (hok.below path m u1.oat).1 x hx
    obtain ⟨i, e, _, h3⟩ := (uses_unfold (hok.models path m u1.oat).bounded (hok.bounded path m u1.oat).1 _).1 h3
    obtain rfl := add_inj e
    rw [hok.toModel] at h4
    rw [uses_at H _ hx'] at h5
    exact ⟨path, x, rfl, hx', m, k, w, u1.oat, hx, h3, h4, h5⟩
  · rintro ⟨path, x, rfl, hx', m, k, w, h1, hx, h3, h4, h5⟩
    obtain ⟨u1, _⟩ := hu path m h1
    refine ⟨path, m.unfold n (use path), k, w, u1.unfold hok.below, by rw [OModel.unfold_vars, mem_add]; exact hx,
      (uses_unfold (hok.models path m h1).bounded (hok.bounded path m h1).1 _).2 ⟨x, rfl, hx', h3⟩, by rw [hok.toModel]; exact h4, by rw [uses_at H _ hx']; exact h5⟩

theorem namedAt_below {path x p} (h : NamedAt H root path x p) : x < n := by
  obtain ⟨m, k, w, h1, hx, _⟩ := h
  exact (hok.below path m h1).1 x hx

theorem named_unfold' {path x p} (h : NamedAt H root path x p) : NamedVar (H.uses n) (root.unfold n 0) (use path * n + x) p :=
  (named_unfold hok hu).2 ⟨path, x, rfl, namedAt_below hok hu h, h⟩

theorem useDecode {path m} (h : OAt H root path m) {x : Nat} (hx : x < n) : pathOf ((use path * n + x) / n) = path ∧ (use path * n + x) % n = x := by
  have hn : 0 < n := by omega
  have h1 : (use path * n + x) % n = x := by rw [Nat.mul_add_mod_self_right]; exact Nat.mod_eq_of_lt hx
  have h2 : (use path * n + x) / n = use path := by rw [Nat.add_comm, Nat.add_mul_div_right _ _ hn, Nat.div_eq_of_lt hx]; omega
  rw [h1, h2]
  exact ⟨(hu path m h).2, rfl⟩

theorem joined_unfold {j j' : Nat} : Joined (H.uses n) (root.unfold n 0) j j' → JoinedAt H root (pathOf (j / n), j % n) (pathOf (j' / n), j' % n) := by
  have dec : ∀ j p, NamedVar (H.uses n) (root.unfold n 0) j p → NamedAt H root (pathOf (j / n)) (j % n) p := by
    intro j p h
    obtain ⟨path, x, rfl, hx, h⟩ := (named_unfold hok hu).1 h
    obtain ⟨m, _, _, h1, _⟩ := id h
    obtain ⟨e1, e2⟩ := useDecode hok hu h1 hx
    rw [e1, e2]; exact h
  rintro (⟨p, h1, h2⟩ | ⟨path, m', a, b, p, q, h1, h2, h3, h4, h5, h6⟩)
  · exact .name _ _ p (dec _ _ h1) (dec _ _ h2)
  · obtain ⟨k, m, u, rfl⟩ := h1.ofUnfold rfl hok.below
    rw [OModel.unfold_connections] at h2
    rw [hok.toModel] at h3 h4
    exact .connection _ _ path m a b p q u.oat h2 h3 h4 (dec _ _ h5) (dec _ _ h6)

theorem joined_fold {a b : List Name × Nat} : JoinedAt H root a b → Joined (H.uses n) (root.unfold n 0) (use a.1 * n + a.2) (use b.1 * n + b.2) := by
  rintro (⟨p, h1, h2⟩ | ⟨path, m, x, y, p, q, h1, h2, h3, h4, h5, h6⟩)
  · exact .name p (named_unfold' hok hu h1) (named_unfold' hok hu h2)
  · refine .connection path (m.unfold n (use path)) x y p q ((hu path m h1).1.unfold hok.below) (by rw [OModel.unfold_connections]; exact h2) ?_ ?_ (named_unfold' hok hu h5) (named_unfold' hok hu h6)
    · rw [hok.toModel]; exact h3
    · rw [hok.toModel]; exact h4

/-- solutions of the unfolded hierarchy are solutions of the hierarchy, use by use -/
theorem solution_fold {V : Type} {fn : Nat → List V → Nat → V} {σ : Nat → V} (h : ObjSolution (H.uses n) (root.unfold n 0) (liftFn n fn) σ) : SharedSolution H root fn fun path x => σ (use path * n + x) := by
  refine ⟨?_, ?_, ?_⟩
  · intro path m hm op hop hk v hv
    obtain ⟨u, _⟩ := hu path m hm
    have hb := (hok.models path m hm).bounded
    have hop' := needs_below hb hop
    have := h.ops path _ (u.unfold hok.below) (use path * n + op) ((needs_unfold hb _).2 ⟨op, rfl, hop⟩) (by rw [uses_at H _ hop']; exact hk) (use path * n + v)
      (by rw [uses_at H _ hop']; exact List.mem_map_of_mem (f := (use path * n + ·)) hv)
    rw [this]
    simp only [liftFn, uses_at H _ hop', (useDecode hok hu hm hop').2, (useDecode hok hu hm (hb.outs op hop' v hv)).2, List.map_map]
    rfl
  · intro path x path' y p hx hy
    exact h.shared _ _ p (named_unfold' hok hu hx) (named_unfold' hok hu hy)
  · intro path m a b p q hm hab hp hq path1 x path2 y hx hy
    exact h.connected path _ a b p q ((hu path m hm).1.unfold hok.below) (by rw [OModel.unfold_connections]; exact hab) (by rw [hok.toModel]; exact hp) (by rw [hok.toModel]; exact hq) _ _
      (named_unfold' hok hu hx) (named_unfold' hok hu hy)

theorem solution_unfold {V : Type} {fn : Nat → List V → Nat → V} {τ : List Name → Nat → V} (h : SharedSolution H root fn τ) :
    ObjSolution (H.uses n) (root.unfold n 0) (liftFn n fn) fun j => τ (pathOf (j / n)) (j % n) := by
  have dec : ∀ j p, NamedVar (H.uses n) (root.unfold n 0) j p → NamedAt H root (pathOf (j / n)) (j % n) p := by
    intro j p h
    obtain ⟨path, x, rfl, hx, h⟩ := (named_unfold hok hu).1 h
    obtain ⟨m, _, _, h1, _⟩ := id h
    obtain ⟨e1, e2⟩ := useDecode hok hu h1 hx
    rw [e1, e2]; exact h
  refine ⟨?_, ?_, ?_⟩
  · intro path m' hm' op hop hk v hv
    obtain ⟨k, m, u, rfl⟩ := hm'.ofUnfold rfl hok.below
    have hm := u.oat
    obtain ⟨u2, _⟩ := hu path m hm
    obtain ⟨rfl, _⟩ := u.det hok.dotFree u2
    have hb := (hok.models path m hm).bounded
    obtain ⟨i, rfl, hi⟩ := (needs_unfold hb _).1 hop
    have hi' := needs_below hb hi
    rw [uses_at H _ hi'] at hk hv ⊢
    obtain ⟨x, hx, rfl⟩ := List.mem_map.1 hv
    obtain ⟨e1, e2⟩ := useDecode hok hu hm (hb.outs i hi' x hx)
    obtain ⟨e3, e4⟩ := useDecode hok hu hm hi'
    simp only [liftFn, e1, e2, e4, List.map_map]
    rw [h.ops path m hm i hi hk x hx]
    congr 1
    refine List.map_congr_left fun d hd => ?_
    obtain ⟨e5, e6⟩ := useDecode hok hu hm (hb.deps i hi' d hd)
    simp only [Function.comp, e5, e6]
  · intro x y p hx hy
    exact h.shared _ _ _ _ p (dec _ _ hx) (dec _ _ hy)
  · intro path m' a b p q hm' hab hp hq x y hx hy
    obtain ⟨k, m, u, rfl⟩ := hm'.ofUnfold rfl hok.below
    rw [OModel.unfold_connections] at hab
    rw [hok.toModel] at hp hq
    exact h.connected path m a b p q u.oat hab hp hq _ _ _ _ (dec _ _ hx) (dec _ _ hy)

end

/-- C89: in a hierarchy in which model objects are used several times, the uses (numbered by `use`, no two the same) have variables of their own: the variable `x` of the model at `path` is the
node `f (use path * n + x)` of the representation; two of them are the same node exactly if promoted names and connections make them one variable.  Executing the representation, from any initial
values, gives values that satisfy in every use of every model the operations of that use, and agree on promoted names and connections; and these are the only such values with the given
values of the variables that nothing computes. -/
theorem C89_shared_models (H : Objs) (n fuel : Nat) (root : OModel) (hok : SharedOk H n root) (hn : 0 < n)
    (hf : ∀ path m, OAt H root path m → (m.outputs ++ m.declared).length + root.size * n ≤ fuel)
    (order : List Nat → List Nat) (ho : ∀ l x, x ∈ order l ↔ x ∈ l) (hno : NoChain (root.toModel H)) (rep : Rep) (hc : compileUses H n fuel order root = .ok rep) :
    ∃ (use : List Name → Nat) (f : Nat → Nat),
      (∀ path m path' m', OAt H root path m → OAt H root path' m' → use path = use path' → path = path') ∧
      (∀ path m, OAt H root path m → ∀ x, (H x).kind = .var → m.Uses H x → f (use path * n + x) ∈ rep.graph.nodes) ∧
      (∀ path m path' m', OAt H root path m → OAt H root path' m' → ∀ x y, (H x).kind = .var → m.Uses H x → (H y).kind = .var → m'.Uses H y →
        (f (use path * n + x) = f (use path' * n + y) ↔ Relation.EqvGen (JoinedAt H root) (path, x) (path', y))) ∧
      ∀ (V : Type) (fn : Nat → List V → Nat → V) (σ0 : Env V),
        let value := fun path x => execAll rep.graph ⟨fun j => decide ((H.uses n j).kind = .op), fun j => (H.uses n j).deps.map f, liftFn n fn⟩ σ0 rep.sorted (f (use path * n + x))
        SharedSolution H root fn value ∧
        (∀ path m, OAt H root path m → ∀ x, (H x).kind = .var → m.Uses H x → (∀ i, ¬ rep.graph.Edge i (f (use path * n + x))) → value path x = σ0 (f (use path * n + x))) ∧
        ∀ τ, SharedSolution H root fn τ →
          (∀ path m, OAt H root path m → ∀ x, (H x).kind = .var → m.Uses H x → (∀ i, ¬ rep.graph.Edge i (f (use path * n + x))) → τ path x = σ0 (f (use path * n + x))) →
          ∀ path m, OAt H root path m → ∀ x, (H x).kind = .var → m.Uses H x → τ path x = value path x := by
  obtain ⟨use, pathOf, hu⟩ := use_numbers hok
  have hf' : ∀ path m, OAt (H.uses n) (root.unfold n 0) path m → (m.outputs ++ m.declared).length + root.size * n ≤ fuel := by
    intro path m' hm'
    obtain ⟨k, m, u, rfl⟩ := hm'.ofUnfold rfl hok.below
    have := hf path m u.oat
    rw [OModel.unfold_outputs, OModel.unfold_declared]
    simpa using this
  obtain ⟨f, h1, h2, _, h4⟩ := C70_objects_to_values (H.uses n) (root.size * n) fuel (root.unfold n 0) (hok.objects hn) hf' order ho (by rw [hok.toModel]; exact hno) rep hc
  -- a variable in use, in the unfolded hierarchy
  have inst : ∀ path m, OAt H root path m → ∀ x, (H x).kind = .var → m.Uses H x →
      OAt (H.uses n) (root.unfold n 0) path (m.unfold n (use path)) ∧ x < n ∧ (H.uses n (use path * n + x)).kind = .var ∧ (m.unfold n (use path)).Uses (H.uses n) (use path * n + x) := by
    intro path m hm x hk hx
    have hb := (hok.models path m hm).bounded
    have hx' : x < n := by
      rcases hx with hx | hx
      · exact (hok.bounded path m hm).1 x hx
      · exact needs_below hb hx.1
    exact ⟨(hu path m hm).1.unfold hok.below, hx', by rw [uses_at H _ hx']; exact hk, (uses_unfold hb (hok.bounded path m hm).1 _).2 ⟨x, rfl, hx', hx⟩⟩
  refine ⟨use, f, ?_, ?_, ?_, ?_⟩
  · intro path m path' m' hm hm' e
    rw [← (hu path m hm).2, ← (hu path' m' hm').2, e]
  · intro path m hm x hk hx
    obtain ⟨a1, _, a2, a3⟩ := inst path m hm x hk hx
    exact (h1 path _ a1 _ a2 a3).1
  · intro path m path' m' hm hm' x y hkx hx hky hy
    obtain ⟨a1, ax, a2, a3⟩ := inst path m hm x hkx hx
    obtain ⟨b1, bx, b2, b3⟩ := inst path' m' hm' y hky hy
    rw [h2 path _ path' _ a1 b1 _ _ a2 a3 b2 b3]
    constructor
    · intro h
      have := eqvGen_map (fun j => (pathOf (j / n), j % n)) (fun a b => joined_unfold hok hu) h
      rw [(useDecode hok hu hm ax).1, (useDecode hok hu hm ax).2, (useDecode hok hu hm' bx).1, (useDecode hok hu hm' bx).2] at this
      exact this
    · intro h
      exact eqvGen_map (fun a : List Name × Nat => use a.1 * n + a.2) (fun a b => joined_fold hok hu) h
  · intro V fn σ0
    obtain ⟨s1, s2, s3⟩ := h4 V (liftFn n fn) σ0
    refine ⟨solution_fold hok hu s1, ?_, ?_⟩
    · intro path m hm x hk hx he
      obtain ⟨a1, _, a2, a3⟩ := inst path m hm x hk hx
      exact s2 path _ a1 _ a2 a3 he
    · intro τ hτ h0 path m hm x hk hx
      obtain ⟨a1, ax, a2, a3⟩ := inst path m hm x hk hx
      have := s3 _ (solution_unfold hok hu hτ) ?_ path _ a1 _ a2 a3
      · rw [(useDecode hok hu hm ax).1, (useDecode hok hu hm ax).2] at this
        exact this
      · intro path' m1 hm1 j hkj hj hej
        obtain ⟨k', m', u', rfl⟩ := hm1.ofUnfold rfl hok.below
        obtain ⟨u2, _⟩ := hu path' m' u'.oat
        obtain ⟨rfl, _⟩ := u'.det hok.dotFree u2
        obtain ⟨i, rfl, hi', hi⟩ := (uses_unfold (hok.models path' m' u'.oat).bounded (hok.bounded path' m' u'.oat).1 _).1 hj
        rw [uses_at H _ hi'] at hkj
        rw [(useDecode hok hu u'.oat hi').1, (useDecode hok hu u'.oat hi').2]
        exact h0 path' m' u'.oat i hkj hi hej

/-- circular dependencies in the unfolded hierarchy are circular dependencies between uses -/
theorem circular_uses (hok : SharedOk H n root) : Circular (H.uses n) (root.unfold n 0) ↔ CircularUses H root := by
  obtain ⟨use, pathOf, hu⟩ := use_numbers hok
  constructor
  · rintro ⟨x, hx⟩
    refine ⟨(pathOf (x / n), x % n), Relation.TransGen.lift (fun j => (pathOf (j / n), j % n)) ?_ _ _ hx⟩
    rintro a b ⟨a', h1, path, m', op, hm', hop, hk, ha, hb'⟩
    refine ⟨(pathOf (a' / n), a' % n), eqvGen_map (fun j => (pathOf (j / n), j % n)) (fun a b => joined_unfold hok hu) h1, ?_⟩
    obtain ⟨k, m, u, rfl⟩ := hm'.ofUnfold rfl hok.below
    have hm := u.oat
    obtain ⟨u2, _⟩ := hu path m hm
    obtain ⟨rfl, _⟩ := u.det hok.dotFree u2
    have hb := (hok.models path m hm).bounded
    obtain ⟨i, rfl, hi⟩ := (needs_unfold hb _).1 hop
    have hi' := needs_below hb hi
    rw [uses_at H _ hi'] at hk ha hb'
    obtain ⟨d, hd, rfl⟩ := List.mem_map.1 ha
    obtain ⟨v, hv, rfl⟩ := List.mem_map.1 hb'
    obtain ⟨e1, e2⟩ := useDecode hok hu hm (hb.deps i hi' d hd)
    obtain ⟨e3, e4⟩ := useDecode hok hu hm (hb.outs i hi' v hv)
    simp only [AffectsAt, e1, e2, e3, e4]
    exact ⟨trivial, m, i, hm, hi, hk, hd, hv⟩
  · rintro ⟨x, hx⟩
    refine ⟨use x.1 * n + x.2, Relation.TransGen.lift (fun a : List Name × Nat => use a.1 * n + a.2) ?_ _ _ hx⟩
    rintro a b ⟨a', h1, h2, m, op, hm, hop, hk, ha, hb'⟩
    refine ⟨use a'.1 * n + a'.2, eqvGen_map (fun a : List Name × Nat => use a.1 * n + a.2) (fun a b => joined_fold hok hu) h1, ?_⟩
    obtain ⟨u, _⟩ := hu _ m hm
    have hb := (hok.models _ m hm).bounded
    have hop' := needs_below hb hop
    refine ⟨_, _, use a'.1 * n + op, u.unfold hok.below, (needs_unfold hb _).2 ⟨op, rfl, hop⟩, ?_, ?_, ?_⟩
    · rw [uses_at H _ hop']; exact hk
    · rw [uses_at H _ hop']; exact List.mem_map_of_mem (f := (use a'.1 * n + ·)) ha
    · rw [uses_at H _ hop']; show use b.1 * n + b.2 ∈ _; rw [← h2]; exact List.mem_map_of_mem (f := (use a'.1 * n + ·)) hb'

theorem fuel_unfold {fuel : Nat} (hok : SharedOk H n root) (hf : ∀ path m, OAt H root path m → (m.outputs ++ m.declared).length + root.size * n ≤ fuel) :
    ∀ path m, OAt (H.uses n) (root.unfold n 0) path m → (m.outputs ++ m.declared).length + root.size * n ≤ fuel := by
  intro path m' hm'
  obtain ⟨k, m, u, rfl⟩ := hm'.ofUnfold rfl hok.below
  have := hf path m u.oat
  rw [OModel.unfold_outputs, OModel.unfold_declared]
  simpa using this

/-- C89: a hierarchy in which model objects are used several times is accepted only if no variable is computed from itself, and rejected by the sorting step only if some variable is; using an object in
two places alone is never circular, for the variables of different uses are different. -/
theorem C89_cycles (H : Objs) (n fuel : Nat) (root : OModel) (hok : SharedOk H n root) (hn : 0 < n)
    (hf : ∀ path m, OAt H root path m → (m.outputs ++ m.declared).length + root.size * n ≤ fuel) (order : List Nat → List Nat) (ho : ∀ l x, x ∈ order l ↔ x ∈ l) (hno : NoChain (root.toModel H)) :
    (∀ rep, compileUses H n fuel order root = .ok rep → ¬ CircularUses H root) ∧ (∀ e, compileUses H n fuel order root = .error (.sort e) → CircularUses H root) := by
  have := C71_cycle_reported (H.uses n) (root.size * n) fuel (root.unfold n 0) (hok.objects hn) (fuel_unfold hok hf) order ho (by rw [hok.toModel]; exact hno)
  rw [circular_uses hok] at this
  exact this

/-- C89: a valid hierarchy is accepted, however often its model objects are used. -/
theorem C89_valid_accepted (H : Objs) (n fuel : Nat) (root : OModel) (hv : ValidUses H n root) (hn : 0 < n)
    (hf : ∀ path m, OAt H root path m → (m.outputs ++ m.declared).length + root.size * n ≤ fuel) (order : List Nat → List Nat) (ho : ∀ l x, x ∈ order l ↔ x ∈ l) :
    ∃ rep, compileUses H n fuel order root = .ok rep := by
  have hok := hv.objects
  obtain ⟨use, pathOf, hu⟩ := use_numbers hok
  have e := hok.toModel
  refine C72_valid_accepted (H.uses n) (root.size * n) fuel (root.unfold n 0) ⟨hok.objects hn, ?_, ?_, ?_, ?_, ?_, ?_, ?_, ?_, ?_, ?_, ?_⟩ (fuel_unfold hok hf) order ho
  · intro path m1 path' m1' op op' v h1 h1' h2 h2' h3 h3' h4 h4'
    obtain ⟨k, m, u, rfl⟩ := h1.ofUnfold rfl hok.below
    obtain ⟨k', m', u', rfl⟩ := h1'.ofUnfold rfl hok.below
    have hb := (hok.models path m u.oat).bounded
    have hb' := (hok.models path' m' u'.oat).bounded
    obtain ⟨i, rfl, hi⟩ := (needs_unfold hb _).1 h2
    obtain ⟨i', rfl, hi'⟩ := (needs_unfold hb' _).1 h2'
    have li := needs_below hb hi
    have li' := needs_below hb' hi'
    rw [uses_at H _ li] at h3 h4
    rw [uses_at H _ li'] at h3' h4'
    obtain ⟨x, hx, rfl⟩ := List.mem_map.1 h4
    obtain ⟨x', hx', hxx⟩ := List.mem_map.1 h4'
    obtain ⟨rfl, rfl⟩ := use_inj (hb'.outs i' li' x' hx') (hb.outs i li x hx) hxx
    obtain ⟨_, rfl⟩ := u.inj u'
    rw [hv.oneOperation path m i i' x' u.oat hi hi' h3 h3' hx hx']
  · rw [e]; exact hv.oneSource
  · rw [e]; exact hv.sizes
  · rw [e]; exact hv.promotes
  · intro path m1 a b h1 hab
    obtain ⟨k, m, u, rfl⟩ := h1.ofUnfold rfl hok.below
    rw [OModel.unfold_connections] at hab
    obtain ⟨p, q, c1, c2, ⟨px, x, c3, c4⟩, ⟨py, y, c5⟩, c6, c7⟩ := hv.connections path m a b u.oat hab
    refine ⟨p, q, by rw [e]; exact c1, by rw [e]; exact c2, ⟨_, named_unfold' hok hu c3, ?_⟩, ⟨_, named_unfold' hok hu c5⟩, ?_, ?_⟩
    · rw [uses_at H _ (namedAt_below hok hu c3)]; exact c4
    · intro j hj path' m2 op h2 hop hk hout
      obtain ⟨py, y, rfl, hy, hnm⟩ := (named_unfold hok hu).1 hj
      obtain ⟨k', m', u', rfl⟩ := h2.ofUnfold rfl hok.below
      have hb := (hok.models path' m' u'.oat).bounded
      obtain ⟨i, rfl, hi⟩ := (needs_unfold hb _).1 hop
      have li := needs_below hb hi
      rw [uses_at H _ li] at hk hout
      obtain ⟨x', hx', hxx⟩ := List.mem_map.1 hout
      obtain ⟨ek, rfl⟩ := use_inj (hb.outs i li x' hx') hy hxx
      obtain ⟨m3, _, _, hm3, _⟩ := id hnm
      have u3 := (hu py m3 hm3).1
      rw [← ek] at u3
      obtain ⟨rfl, rfl⟩ := u'.inj u3
      exact c6 _ x' hnm m' i hm3 hi hk hx'
    · intro j j' hj hj'
      obtain ⟨p1, x1, rfl, l1, n1⟩ := (named_unfold hok hu).1 hj
      obtain ⟨p2, x2, rfl, l2, n2⟩ := (named_unfold hok hu).1 hj'
      rw [uses_at H _ l1, uses_at H _ l2]
      exact c7 _ _ _ _ n1 n2
  · rw [e]; exact hv.oneConnection
  · rw [e]; exact hv.noChain
  · rw [e]; exact hv.designVars
  · rw [e]; exact hv.constraints
  · rw [e]; exact hv.objective
  · rw [circular_uses hok]; exact hv.acyclic

/-! A concrete hierarchy that meets all hypotheses: the main model creates the input `a` (0), declares `s` (1), which operation 2 maps to the output `y` (3), and uses one model object twice, as the
submodels `A` (4) and `B` (5); it connects `a` to `A.x`, `A.w` to `B.x` and `B.w` to `s`.  The model object declares `x` (6), which operation 7 maps to an unnamed variable (8), which operation 9
maps to the output `w` (10). -/

def exTwice : Objs := fun i => match i with
  | 0 => { kind := .var, name := "a".toList, auto := "_0000".toList, role := .input }
  | 1 => { kind := .var, name := "s".toList, auto := "_0001".toList }
  | 2 => { kind := .op, name := "_0002".toList, deps := [1], outs := [3] }
  | 3 => { kind := .var, name := "y".toList, auto := "_0003".toList, role := .output, deps := [2] }
  | 4 => { kind := .model, name := "A".toList }
  | 5 => { kind := .model, name := "B".toList }
  | 6 => { kind := .var, name := "x".toList, auto := "_0005".toList }
  | 7 => { kind := .op, name := "_0006".toList, deps := [6], outs := [8] }
  | 8 => { kind := .var, name := "_0007".toList, auto := "_0007".toList, role := .output, deps := [7] }
  | 9 => { kind := .op, name := "_0008".toList, deps := [8], outs := [10] }
  | 10 => { kind := .var, name := "w".toList, auto := "_0009".toList, role := .output, deps := [9] }
  | _ => { kind := .var, name := "_0011".toList }

def exTwiceSub : OModel := .mk [] [10] [6] [] [] [] none .nil
def exTwiceRoot : OModel := .mk [0] [3] [1] [("a".toList, "A.x".toList), ("A.w".toList, "B.x".toList), ("B.w".toList, "s".toList)] [] [] none
  (.cons 4 (some []) exTwiceSub (.cons 5 (some []) exTwiceSub .nil))

theorem exTwice_oat {path m} (h : OAt exTwice exTwiceRoot path m) : (path = [] ∧ m = exTwiceRoot) ∨ ((path = ["A".toList] ∨ path = ["B".toList]) ∧ m = exTwiceSub) := by
  cases h with
  | here => exact Or.inl ⟨rfl, rfl⟩
  | @down _ s path m' hs h =>
    simp only [exTwiceRoot, OModel.subs, OSubs.toList, List.mem_cons, List.not_mem_nil, or_false] at hs
    rcases hs with rfl | rfl
    · cases h with
      | here => exact Or.inr ⟨Or.inl rfl, rfl⟩
      | @down _ s path m' hs h => simp [exTwiceSub, OModel.subs, OSubs.toList] at hs
    · cases h with
      | here => exact Or.inr ⟨Or.inr rfl, rfl⟩
      | @down _ s path m' hs h => simp [exTwiceSub, OModel.subs, OSubs.toList] at hs

theorem exTwice_needs {c : Nat} (h : exTwiceRoot.Needs exTwice c) : c ∈ [1, 2, 3] := Needed.sub (S := [1, 2, 3]) (by decide) (by decide) (by decide) h
theorem exTwiceSub_needs {c : Nat} (h : exTwiceSub.Needs exTwice c) : c ∈ [6, 7, 8, 9, 10] := Needed.sub (S := [6, 7, 8, 9, 10]) (by decide) (by decide) (by decide) h

theorem exTwice_bounded (l : List Nat) (h : ∀ c ∈ l, c < 11) : Bounded exTwice.heap 11 l := by
  refine ⟨h, ?_, ?_⟩ <;> decide

theorem exTwice_root : ModelOk exTwice 11 exTwiceRoot := by
  have hin : ∀ c, (Needed exTwice.heap (exTwiceRoot.outputs ++ exTwiceRoot.declared) c ∨ c ∈ exTwiceRoot.inputs) → c ∈ [0, 1, 2, 3] := by
    rintro c (h | h)
    · exact List.mem_cons_of_mem _ (exTwice_needs h)
    · simp [exTwiceRoot, OModel.inputs] at h; simp [h]
  refine ⟨exTwice_bounded _ (by decide), ⟨?_, by decide, ?_, ?_⟩, ?_, by decide, by decide, by decide, ?_, ?_, by decide, ?_, by decide, by decide⟩
  · intro c hc
    have : ∀ c ∈ [1, 2, 3], (exTwice.heap c).kind ≠ .model := by decide
    exact this c (exTwice_needs hc)
  · intro a b ha hb
    have : ∀ a ∈ [0, 1, 2, 3], ∀ b ∈ [0, 1, 2, 3], (exTwice.heap a).name = (exTwice.heap b).name → (exTwice.heap a).kind = .op → a = b := by decide
    exact this a (hin a ha) b (hin b hb)
  · intro s hs c hc
    have : ∀ s ∈ [4, 5], ∀ c ∈ [0, 1, 2, 3], (exTwice.heap s).name ≠ (exTwice.heap c).name := by decide
    simp only [exTwiceRoot, OModel.subs, OSubs.toList, List.map_cons, List.map_nil] at hs
    exact this s hs c (hin c hc)
  · intro s hs
    simp only [exTwiceRoot, OModel.subs, OSubs.toList, List.mem_cons, List.not_mem_nil, or_false] at hs
    rcases hs with rfl | rfl <;> rfl
  · intro c hc
    have : ∀ c ∈ [1, 2, 3], (exTwice c).kind = .var → ∀ u ∈ (exTwice c).deps, (exTwice u).kind = .op ∧ c ∈ (exTwice u).outs := by decide
    exact this c (exTwice_needs hc)
  · intro c hc
    have : ∀ c ∈ [1, 2, 3], (exTwice c).kind = .op → (∀ u ∈ (exTwice c).deps, (exTwice u).kind = .var) ∧ ∀ v ∈ (exTwice c).outs, (exTwice v).kind = .var ∧ (exTwice v).role = .output := by decide
    exact this c (exTwice_needs hc)
  · intro c hc
    have : ∀ c ∈ [1, 2, 3], (exTwice c).kind = .var → c ∉ exTwiceRoot.vars → (exTwice c).name = (exTwice c).auto := by decide
    exact this c (exTwice_needs hc)

theorem exTwice_sub : ModelOk exTwice 11 exTwiceSub := by
  have hin : ∀ c, (Needed exTwice.heap (exTwiceSub.outputs ++ exTwiceSub.declared) c ∨ c ∈ exTwiceSub.inputs) → c ∈ [6, 7, 8, 9, 10] := by
    rintro c (h | h)
    · exact exTwiceSub_needs h
    · simp [exTwiceSub, OModel.inputs] at h
  refine ⟨exTwice_bounded _ (by decide), ⟨?_, by decide, ?_, ?_⟩, ?_, by decide, by decide, by decide, ?_, ?_, by decide, ?_, by decide, by decide⟩
  · intro c hc
    have : ∀ c ∈ [6, 7, 8, 9, 10], (exTwice.heap c).kind ≠ .model := by decide
    exact this c (exTwiceSub_needs hc)
  · intro a b ha hb
    have : ∀ a ∈ [6, 7, 8, 9, 10], ∀ b ∈ [6, 7, 8, 9, 10], (exTwice.heap a).name = (exTwice.heap b).name → (exTwice.heap a).kind = .op → a = b := by decide
    exact this a (hin a ha) b (hin b hb)
  · intro s hs; simp [exTwiceSub, OModel.subs, OSubs.toList] at hs
  · intro s hs; simp [exTwiceSub, OModel.subs, OSubs.toList] at hs
  · intro c hc
    have : ∀ c ∈ [6, 7, 8, 9, 10], (exTwice c).kind = .var → ∀ u ∈ (exTwice c).deps, (exTwice u).kind = .op ∧ c ∈ (exTwice u).outs := by decide
    exact this c (exTwiceSub_needs hc)
  · intro c hc
    have : ∀ c ∈ [6, 7, 8, 9, 10], (exTwice c).kind = .op → (∀ u ∈ (exTwice c).deps, (exTwice u).kind = .var) ∧ ∀ v ∈ (exTwice c).outs, (exTwice v).kind = .var ∧ (exTwice v).role = .output := by decide
    exact this c (exTwiceSub_needs hc)
  · intro c hc
    have : ∀ c ∈ [6, 7, 8, 9, 10], (exTwice c).kind = .var → c ∉ exTwiceSub.vars → (exTwice c).name = (exTwice c).auto := by decide
    exact this c (exTwiceSub_needs hc)

theorem exTwice_ok : SharedOk exTwice 11 exTwiceRoot := by
  refine ⟨?_, ?_, dotFree_of (by decide), ?_⟩
  · intro path m h
    rcases exTwice_oat h with ⟨_, rfl⟩ | ⟨_, rfl⟩
    · exact exTwice_root
    · exact exTwice_sub
  · intro path m h
    rcases exTwice_oat h with ⟨_, rfl⟩ | ⟨_, rfl⟩ <;> decide
  · intro path m h c hc hk hv
    rcases exTwice_oat h with ⟨_, rfl⟩ | ⟨_, rfl⟩
    · have : ∀ c ∈ [1, 2, 3], (exTwice c).kind = .var → c ∈ exTwiceRoot.vars := by decide
      exact absurd (this c (exTwice_needs hc) hk) hv
    · have h8 : ∀ c ∈ [6, 7, 8, 9, 10], (exTwice c).kind = .var → c ∉ exTwiceSub.vars → c = 8 := by decide
      have e := h8 c (exTwiceSub_needs hc) hk hv
      subst e
      refine ⟨by decide, by decide, ?_⟩
      intro path' m' h' c' hc' he
      have : ∀ c' ∈ [0, 1, 2, 3, 6, 7, 8, 9, 10], (exTwice c').name = (exTwice 8).name → c' = 8 := by decide
      refine this c' ?_ he
      rcases exTwice_oat h' with ⟨_, rfl⟩ | ⟨_, rfl⟩
      · rcases hc' with hc' | hc'
        · have : ∀ c ∈ exTwiceRoot.vars, c ∈ [0, 1, 2, 3, 6, 7, 8, 9, 10] := by decide
          exact this c' hc'
        · have := exTwice_needs hc'.1
          simp at this ⊢; omega
      · rcases hc' with hc' | hc'
        · have : ∀ c ∈ exTwiceSub.vars, c ∈ [0, 1, 2, 3, 6, 7, 8, 9, 10] := by decide
          exact this c' hc'
        · have := exTwiceSub_needs hc'.1
          simp at this ⊢; omega

/-- what the ends of all connections denote shows that there is no chain -/
theorem noChain_of {m : Model} (hd : DotFree m) {r : Res} (hr : resolve m none = .ok r) (L : List ((List Name × Name × Name) × Name × Name))
    (hL : issuedPost Local.connections m = L.map Prod.fst) (hden : ∀ x ∈ L, Denotes m (fullName x.1.1 x.1.2.1) x.2.1 ∧ Denotes m (fullName x.1.1 x.1.2.2) x.2.2)
    (h1 : ∀ x ∈ L, x.2.1 ≠ x.2.2) (h2 : L.Pairwise fun x y => y.2.1 ≠ x.2.2) : NoChain m := by
  constructor
  · intro i hi p a b
    rw [hL, List.mem_map] at hi
    obtain ⟨x, hx, rfl⟩ := hi
    have e1 := C09_denotation_unique m hd r hr _ _ _ a (hden x hx).1
    have e2 := C09_denotation_unique m hd r hr _ _ _ b (hden x hx).2
    exact h1 x hx (by rw [← e1, ← e2])
  · rw [hL, List.pairwise_map]
    refine List.Pairwise.imp_of_mem ?_ h2
    intro x y hx hy hxy p a b
    have e1 := C09_denotation_unique m hd r hr _ _ _ a (hden y hy).1
    have e2 := C09_denotation_unique m hd r hr _ _ _ b (hden x hx).2
    exact hxy (by rw [← e1, ← e2])

theorem exTwice_noChain : NoChain (exTwiceRoot.toModel exTwice) := by
  have hd : DotFree (exTwiceRoot.toModel exTwice) := dotFree_of (by decide)
  obtain ⟨r, hr, _⟩ := ok_of_check (x := resolve (exTwiceRoot.toModel exTwice) none) (P := fun _ => true) (by decide)
  have sA : (⟨"A".toList, some [], exTwiceSub.toModel exTwice⟩ : Subgraph) ∈ (OSubs.toSubs exTwice (.cons 4 (some []) exTwiceSub (.cons 5 (some []) exTwiceSub .nil))).toList := List.mem_cons_self
  have sB : (⟨"B".toList, some [], exTwiceSub.toModel exTwice⟩ : Subgraph) ∈ (OSubs.toSubs exTwice (.cons 4 (some []) exTwiceSub (.cons 5 (some []) exTwiceSub .nil))).toList := List.mem_cons_of_mem _ List.mem_cons_self
  have np : ∀ p : Name, ¬ IsPromoted (some []) p := by intro p; simp [IsPromoted]
  have hx : PromotedAs (exTwiceSub.toModel exTwice) [] .target ⟨"x".toList, [1]⟩ "x".toList := .here (v := ⟨"x".toList, [1]⟩) (by show _ ∈ [_]; exact List.mem_singleton.2 rfl)
  have hw : PromotedAs (exTwiceSub.toModel exTwice) [] .source ⟨"w".toList, [1]⟩ "w".toList := .here (v := ⟨"w".toList, [1]⟩) (by show _ ∈ [_]; exact List.mem_singleton.2 rfl)
  have ha : PromotedAs (exTwiceRoot.toModel exTwice) [] .source ⟨"a".toList, [1]⟩ "a".toList := .here (v := ⟨"a".toList, [1]⟩) (by show _ ∈ [_, _]; exact List.mem_cons_self)
  have hs : PromotedAs (exTwiceRoot.toModel exTwice) [] .target ⟨"s".toList, [1]⟩ "s".toList := .here (v := ⟨"s".toList, [1]⟩) (by show _ ∈ [_]; exact List.mem_singleton.2 rfl)
  refine noChain_of hd hr [(([], "a".toList, "A.x".toList), "a".toList, "A.x".toList), (([], "A.w".toList, "B.x".toList), "A.w".toList, "B.x".toList), (([], "B.w".toList, "s".toList), "B.w".toList, "s".toList)]
    (by decide) ?_ (by decide) (by decide)
  intro c hc
  simp only [List.mem_cons, List.not_mem_nil, or_false] at hc
  rcases hc with rfl | rfl | rfl
  · exact ⟨.promoted ha, .promoted (.stay sA hx (np _))⟩
  · exact ⟨.promoted (.stay sA hw (np _)), .promoted (.stay sB hx (np _))⟩
  · exact ⟨.promoted (.stay sB hw (np _)), .promoted hs⟩

/-- the example is compiled, and the hypotheses of C89 hold of it; executing it with the successor function for all operations and the value 5 of `a` gives 7 for `A.w`, 9 for `B.w` and 10 for `y` -/
example : ∃ rep, SharedOk exTwice 11 exTwiceRoot ∧ (∀ path m, OAt exTwice exTwiceRoot path m → (m.outputs ++ m.declared).length + exTwiceRoot.size * 11 ≤ 40) ∧ NoChain (exTwiceRoot.toModel exTwice) ∧
    compileUses exTwice 11 40 id exTwiceRoot = .ok rep ∧ ∀ f : Nat → Nat, f 1 = 32 → f 17 = 0 → f 19 = 19 → f 28 = 21 → f 30 = 30 →
      (execAll rep.graph ⟨fun j => decide ((exTwice.uses 11 j).kind = .op), fun j => (exTwice.uses 11 j).deps.map f, liftFn 11 fun _ l _ => l.sum + 1⟩ (fun v => if v = 0 then 5 else 0) rep.sorted 21 = 7 ∧
      execAll rep.graph ⟨fun j => decide ((exTwice.uses 11 j).kind = .op), fun j => (exTwice.uses 11 j).deps.map f, liftFn 11 fun _ l _ => l.sum + 1⟩ (fun v => if v = 0 then 5 else 0) rep.sorted 32 = 9 ∧
      execAll rep.graph ⟨fun j => decide ((exTwice.uses 11 j).kind = .op), fun j => (exTwice.uses 11 j).deps.map f, liftFn 11 fun _ l _ => l.sum + 1⟩ (fun v => if v = 0 then 5 else 0) rep.sorted 3 = 10) := by
  obtain ⟨rep, hrep, h⟩ := ok_of_check (x := compileUses exTwice 11 40 id exTwiceRoot) (P := fun rep => decide (rep.graph.edges = [(2, 3), (20, 21), (19, 20), (18, 19), (31, 32), (30, 31), (29, 30), (0, 18), (21, 29), (32, 2)] ∧ rep.sorted = [0, 18, 19, 20, 21, 29, 30, 31, 32, 2, 3])) (by decide +kernel)
  obtain ⟨h1, h2⟩ := of_decide_eq_true h
  refine ⟨rep, exTwice_ok, ?_, exTwice_noChain, hrep, ?_⟩
  · intro path m h
    rcases exTwice_oat h with ⟨_, rfl⟩ | ⟨_, rfl⟩ <;> decide
  · intro f e1 e17 e19 e28 e30
    rw [h2]
    simp [execAll, execNode, h1, exTwice, Objs.uses, liftFn, e1, e17, e19, e28, e30]

def exTwiceSubNames : List (List Name × VarKind × VarInfo × Name) := [([], .source, ⟨"w".toList, [1]⟩, "w".toList), ([], .target, ⟨"x".toList, [1]⟩, "x".toList)]
def exTwiceNames : List (List Name × VarKind × VarInfo × Name) :=
  [([], .source, ⟨"a".toList, [1]⟩, "a".toList), ([], .source, ⟨"y".toList, [1]⟩, "y".toList), ([], .target, ⟨"s".toList, [1]⟩, "s".toList),
   (["A".toList], .source, ⟨"w".toList, [1]⟩, "A.w".toList), (["A".toList], .target, ⟨"x".toList, [1]⟩, "A.x".toList),
   (["B".toList], .source, ⟨"w".toList, [1]⟩, "B.w".toList), (["B".toList], .target, ⟨"x".toList, [1]⟩, "B.x".toList)]

theorem exTwiceSub_promoted {path k w p} (h : PromotedAs (exTwiceSub.toModel exTwice) path k w p) : (path, k, w, p) ∈ exTwiceSubNames := by
  cases h with
  | @here _ _ k v hv => cases k <;> simp [Local.vars, Local.sources, exTwice, Objs.varInfo] at hv <;> subst hv <;> simp [exTwiceSubNames]
  | @up _ _ path k v p s hs hp hpr => simp [Subs.toList, OSubs.toSubs] at hs
  | @stay _ _ path k v p s hs hp hpr => simp [Subs.toList, OSubs.toSubs] at hs

theorem exTwice_promoted {path k w p} (h : PromotedAs (exTwiceRoot.toModel exTwice) path k w p) : (path, k, w, p) ∈ exTwiceNames := by
  cases h with
  | @here _ _ k v hv =>
    cases k <;> simp [Local.vars, Local.sources, exTwice, Objs.varInfo] at hv
    · rcases hv with rfl | rfl <;> simp [exTwiceNames]
    · subst hv; simp [exTwiceNames]
  | @up _ _ path k v p s hs hp hpr =>
    simp only [Subs.toList, OSubs.toSubs, List.mem_cons, List.not_mem_nil, or_false] at hs
    rcases hs with rfl | rfl <;> simp [IsPromoted] at hpr
  | @stay _ _ path k v p s hs hp hpr =>
    simp only [Subs.toList, OSubs.toSubs, List.mem_cons, List.not_mem_nil, or_false] at hs
    have key : ∀ e ∈ exTwiceSubNames, ∀ s ∈ ["A".toList, "B".toList], (s :: e.1, e.2.1, e.2.2.1, prependNamespace s e.2.2.2) ∈ exTwiceNames := by decide
    rcases hs with rfl | rfl
    · exact key _ (exTwiceSub_promoted hp) _ (by decide)
    · exact key _ (exTwiceSub_promoted hp) _ (by decide)

theorem exTwice_at {path m} (h : At (exTwiceRoot.toModel exTwice) path m) : m = exTwiceRoot.toModel exTwice ∨ m = exTwiceSub.toModel exTwice := by
  obtain ⟨o, h1, rfl⟩ := OAt.ofAt h
  rcases exTwice_oat h1 with ⟨_, rfl⟩ | ⟨_, rfl⟩
  · exact Or.inl rfl
  · exact Or.inr rfl

/-- the example is valid -/
theorem exTwice_valid : ValidUses exTwice 11 exTwiceRoot := by
  have hne : ∀ {path x p}, NamedAt exTwice exTwiceRoot path x p → (exTwice x).shape = [1] := by
    rintro path x p ⟨m, k, w, h1, h2, _⟩
    rcases exTwice_oat h1 with ⟨_, rfl⟩ | ⟨_, rfl⟩
    · have : ∀ x ∈ exTwiceRoot.vars, (exTwice x).shape = [1] := by decide
      exact this x h2
    · have : ∀ x ∈ exTwiceSub.vars, (exTwice x).shape = [1] := by decide
      exact this x h2
  have hops : ∀ path m op, OAt exTwice exTwiceRoot path m → m.Needs exTwice op → op ∈ [1, 2, 3, 6, 7, 8, 9, 10] := by
    intro path m op h1 h2
    rcases exTwice_oat h1 with ⟨_, rfl⟩ | ⟨_, rfl⟩
    · have := exTwice_needs h2; simp at this ⊢; omega
    · have := exTwiceSub_needs h2; simp at this ⊢; omega
  have noDecl : ∀ sel : Local → List (Name × Nat), (∀ path l subs, At (exTwiceRoot.toModel exTwice) path (.mk l subs) → sel l = []) → NamesResolve (exTwiceRoot.toModel exTwice) sel := by
    intro sel h path l subs k d hat hk
    rw [h path l subs hat] at hk; cases hk
  have np : ∀ p : Name, ¬ IsPromoted (some []) p := by intro p; simp [IsPromoted]
  have sA : (⟨"A".toList, some [], exTwiceSub.toModel exTwice⟩ : Subgraph) ∈ (OSubs.toSubs exTwice (.cons 4 (some []) exTwiceSub (.cons 5 (some []) exTwiceSub .nil))).toList := List.mem_cons_self
  have sB : (⟨"B".toList, some [], exTwiceSub.toModel exTwice⟩ : Subgraph) ∈ (OSubs.toSubs exTwice (.cons 4 (some []) exTwiceSub (.cons 5 (some []) exTwiceSub .nil))).toList := List.mem_cons_of_mem _ List.mem_cons_self
  have hx : PromotedAs (exTwiceSub.toModel exTwice) [] .target ⟨"x".toList, [1]⟩ "x".toList := .here (v := ⟨"x".toList, [1]⟩) (by show _ ∈ [_]; exact List.mem_singleton.2 rfl)
  have hw : PromotedAs (exTwiceSub.toModel exTwice) [] .source ⟨"w".toList, [1]⟩ "w".toList := .here (v := ⟨"w".toList, [1]⟩) (by show _ ∈ [_]; exact List.mem_singleton.2 rfl)
  have ha : PromotedAs (exTwiceRoot.toModel exTwice) [] .source ⟨"a".toList, [1]⟩ "a".toList := .here (v := ⟨"a".toList, [1]⟩) (by show _ ∈ [_, _]; exact List.mem_cons_self)
  have hs : PromotedAs (exTwiceRoot.toModel exTwice) [] .target ⟨"s".toList, [1]⟩ "s".toList := .here (v := ⟨"s".toList, [1]⟩) (by show _ ∈ [_]; exact List.mem_singleton.2 rfl)
  have pAx : PromotedAs (exTwiceRoot.toModel exTwice) ["A".toList] .target ⟨"x".toList, [1]⟩ "A.x".toList := .stay sA hx (np _)
  have pBx : PromotedAs (exTwiceRoot.toModel exTwice) ["B".toList] .target ⟨"x".toList, [1]⟩ "B.x".toList := .stay sB hx (np _)
  have pAw : PromotedAs (exTwiceRoot.toModel exTwice) ["A".toList] .source ⟨"w".toList, [1]⟩ "A.w".toList := .stay sA hw (np _)
  have pBw : PromotedAs (exTwiceRoot.toModel exTwice) ["B".toList] .source ⟨"w".toList, [1]⟩ "B.w".toList := .stay sB hw (np _)
  have oA : OAt exTwice exTwiceRoot ["A".toList] exTwiceSub := OAt.down (m := exTwiceRoot) (s := ⟨4, some [], exTwiceSub⟩) (by simp [exTwiceRoot, OModel.subs, OSubs.toList]) (.here _)
  have oB : OAt exTwice exTwiceRoot ["B".toList] exTwiceSub := OAt.down (m := exTwiceRoot) (s := ⟨5, some [], exTwiceSub⟩) (by simp [exTwiceRoot, OModel.subs, OSubs.toList]) (.here _)
  have n6 : exTwiceSub.Needs exTwice 6 := .leaf 6 (by decide)
  have n10 : exTwiceSub.Needs exTwice 10 := .leaf 10 (by decide)
  have n9 : exTwiceSub.Needs exTwice 9 := .dep 10 9 n10 (by decide)
  have n8 : exTwiceSub.Needs exTwice 8 := .dep 9 8 n9 (by decide)
  have n7 : exTwiceSub.Needs exTwice 7 := .dep 8 7 n8 (by decide)
  have n1 : exTwiceRoot.Needs exTwice 1 := .leaf 1 (by decide)
  have n3 : exTwiceRoot.Needs exTwice 3 := .leaf 3 (by decide)
  have n2 : exTwiceRoot.Needs exTwice 2 := .dep 3 2 n3 (by decide)
  have u6 : exTwiceSub.Uses exTwice 6 := Or.inr ⟨n6, 6, ⟨n6, 7, n7, Or.inr (Or.inl (by decide))⟩, rfl⟩
  have u10 : exTwiceSub.Uses exTwice 10 := Or.inr ⟨n10, 10, ⟨n10, 9, n9, Or.inl (Or.inl (by decide))⟩, rfl⟩
  have u1 : exTwiceRoot.Uses exTwice 1 := Or.inr ⟨n1, 1, ⟨n1, 2, n2, Or.inr (Or.inl (by decide))⟩, rfl⟩
  have v0 : NamedAt exTwice exTwiceRoot [] 0 "a".toList := ⟨exTwiceRoot, _, _, .here _, by decide, Or.inl (by decide), ha, rfl⟩
  have v1 : NamedAt exTwice exTwiceRoot [] 1 "s".toList := ⟨exTwiceRoot, _, _, .here _, by decide, u1, hs, rfl⟩
  have vAx : NamedAt exTwice exTwiceRoot ["A".toList] 6 "A.x".toList := ⟨exTwiceSub, _, _, oA, by decide, u6, pAx, rfl⟩
  have vBx : NamedAt exTwice exTwiceRoot ["B".toList] 6 "B.x".toList := ⟨exTwiceSub, _, _, oB, by decide, u6, pBx, rfl⟩
  have vAw : NamedAt exTwice exTwiceRoot ["A".toList] 10 "A.w".toList := ⟨exTwiceSub, _, _, oA, by decide, u10, pAw, rfl⟩
  have vBw : NamedAt exTwice exTwiceRoot ["B".toList] 10 "B.w".toList := ⟨exTwiceSub, _, _, oB, by decide, u10, pBw, rfl⟩
  -- the targets are declared variables
  have decl : ∀ path y q, NamedAt exTwice exTwiceRoot path y q → q ∈ ["A.x".toList, "B.x".toList, "s".toList] → y = 1 ∨ y = 6 := by
    rintro path y q ⟨m, k, w, h1, h2, _, h4, h5⟩ hq
    have key : ∀ e ∈ exTwiceNames, e.2.2.2 ∈ ["A.x".toList, "B.x".toList, "s".toList] → e.2.2.1.name ∈ ["x".toList, "s".toList] := by decide
    have := key _ (exTwice_promoted h4) hq
    rw [h5] at this
    have key2 : ∀ y ∈ [0, 1, 3, 6, 10], (exTwice y).name ∈ ["x".toList, "s".toList] → y = 1 ∨ y = 6 := by decide
    refine key2 y ?_ this
    rcases exTwice_oat h1 with ⟨_, rfl⟩ | ⟨_, rfl⟩
    · have : ∀ x ∈ exTwiceRoot.vars, x ∈ [0, 1, 3, 6, 10] := by decide
      exact this y h2
    · have : ∀ x ∈ exTwiceSub.vars, x ∈ [0, 1, 3, 6, 10] := by decide
      exact this y h2
  have free : ∀ q ∈ ["A.x".toList, "B.x".toList, "s".toList], ∀ path y, NamedAt exTwice exTwiceRoot path y q → ∀ m op, OAt exTwice exTwiceRoot path m → m.Needs exTwice op → (exTwice op).kind = .op → y ∉ (exTwice op).outs := by
    intro q hq path y hy m op h1 h2 _
    have key : ∀ op ∈ [1, 2, 3, 6, 7, 8, 9, 10], 1 ∉ (exTwice op).outs ∧ 6 ∉ (exTwice op).outs := by decide
    rcases decl path y q hy hq with rfl | rfl
    · exact (key op (hops _ _ _ h1 h2)).1
    · exact (key op (hops _ _ _ h1 h2)).2
  have iss : issuedPost Local.connections (exTwiceRoot.toModel exTwice) = [([], "a".toList, "A.x".toList), ([], "A.w".toList, "B.x".toList), ([], "B.w".toList, "s".toList)] := by decide
  obtain ⟨r, hr, _⟩ := ok_of_check (x := resolve (exTwiceRoot.toModel exTwice) none) (P := fun _ => true) (by decide)
  refine ⟨exTwice_ok, ?_, ?_, ?_, ?_, ?_, ?_, exTwice_noChain, ⟨noDecl _ ?_, ?_⟩, ⟨noDecl _ ?_, ?_⟩, ⟨noDecl _ ?_, ?_⟩, ?_⟩
  · intro path m op op' v h1 h2 h3 _ _ h5 h6
    have key : ∀ op ∈ [1, 2, 3, 6, 7, 8, 9, 10], ∀ op' ∈ [1, 2, 3, 6, 7, 8, 9, 10], ∀ v ∈ (exTwice op).outs, v ∈ (exTwice op').outs → op = op' := by decide
    exact key op (hops _ _ _ h1 h2) op' (hops _ _ _ h1 h3) v h5 h6
  · intro path m hat p p1 v1 p2 v2 h1 h2
    rcases exTwice_at hat with rfl | rfl
    · have key : ∀ e ∈ exTwiceNames, ∀ e' ∈ exTwiceNames, e.2.2.2 = e'.2.2.2 → e.1 = e'.1 := by decide
      exact key _ (exTwice_promoted h1) _ (exTwice_promoted h2) rfl
    · have key : ∀ e ∈ exTwiceSubNames, ∀ e' ∈ exTwiceSubNames, e.2.2.2 = e'.2.2.2 → e.1 = e'.1 := by decide
      exact key _ (exTwiceSub_promoted h1) _ (exTwiceSub_promoted h2) rfl
  · intro path m hat p k1 p1 v1 k2 p2 v2 h1 h2 hne
    exfalso
    rcases exTwice_at hat with rfl | rfl
    · have key : ∀ e ∈ exTwiceNames, ∀ e' ∈ exTwiceNames, e.2.2.2 = e'.2.2.2 → e.1 = e'.1 := by decide
      exact hne (key _ (exTwice_promoted h1) _ (exTwice_promoted h2) rfl)
    · have key : ∀ e ∈ exTwiceSubNames, ∀ e' ∈ exTwiceSubNames, e.2.2.2 = e'.2.2.2 → e.1 = e'.1 := by decide
      exact hne (key _ (exTwiceSub_promoted h1) _ (exTwiceSub_promoted h2) rfl)
  · intro path l subs hat s hs q hq x hx
    rcases exTwice_at hat with e | e <;> cases e
    · simp only [Subs.toList, OSubs.toSubs, List.mem_cons, List.not_mem_nil, or_false] at hs
      rcases hs with rfl | rfl <;> cases hq <;> cases hx
    · simp [Subs.toList, OSubs.toSubs] at hs
  · intro path m a b h1 hab
    rcases exTwice_oat h1 with ⟨rfl, rfl⟩ | ⟨_, rfl⟩
    · simp only [exTwiceRoot, OModel.connections, List.mem_cons, List.not_mem_nil, or_false, Prod.mk.injEq] at hab
      rcases hab with ⟨rfl, rfl⟩ | ⟨rfl, rfl⟩ | ⟨rfl, rfl⟩
      · exact ⟨"a".toList, "A.x".toList, .promoted ha, .promoted pAx, ⟨_, _, v0, by decide⟩, ⟨_, _, vAx⟩, free _ (by decide), fun _ _ _ _ h h' => by rw [hne h, hne h']⟩
      · exact ⟨"A.w".toList, "B.x".toList, .promoted pAw, .promoted pBx, ⟨_, _, vAw, by decide⟩, ⟨_, _, vBx⟩, free _ (by decide), fun _ _ _ _ h h' => by rw [hne h, hne h']⟩
      · exact ⟨"B.w".toList, "s".toList, .promoted pBw, .promoted hs, ⟨_, _, vBw, by decide⟩, ⟨_, _, v1⟩, free _ (by decide), fun _ _ _ _ h h' => by rw [hne h, hne h']⟩
    · simp [exTwiceSub, OModel.connections] at hab
  · rw [iss]
    have un := fun n p q => C09_denotation_unique _ exTwice_ok.dotFree r hr n p q
    refine .cons ?_ (.cons ?_ (List.pairwise_singleton _ _))
    · intro j hj q h1 h2
      have e1 := un _ _ _ h1 (.promoted pAx)
      simp only [List.mem_cons, List.not_mem_nil, or_false] at hj
      rcases hj with rfl | rfl
      · have e2 := un _ _ _ h2 (.promoted pBx)
        rw [e1] at e2; exact absurd e2 (by decide)
      · have e2 := un _ _ _ h2 (.promoted hs)
        rw [e1] at e2; exact absurd e2 (by decide)
    · intro j hj q h1 h2
      have e1 := un _ _ _ h1 (.promoted pBx)
      simp only [List.mem_cons, List.not_mem_nil, or_false] at hj
      rcases hj with rfl
      have e2 := un _ _ _ h2 (.promoted hs)
      rw [e1] at e2; exact absurd e2 (by decide)
  · intro path l subs hat; rcases exTwice_at hat with e | e <;> cases e <;> rfl
  · exact List.Pairwise.nil
  · intro path l subs hat; rcases exTwice_at hat with e | e <;> cases e <;> rfl
  · exact List.Pairwise.nil
  · intro path l subs hat; rcases exTwice_at hat with e | e <;> cases e <;> rfl
  · decide
  · obtain ⟨rep, hrep, _⟩ := ok_of_check (x := compileUses exTwice 11 40 id exTwiceRoot) (P := fun _ => true) (by decide +kernel)
    refine (C89_cycles exTwice 11 40 exTwiceRoot exTwice_ok (by decide) ?_ id (by simp) exTwice_noChain).1 rep hrep
    intro path m h
    rcases exTwice_oat h with ⟨_, rfl⟩ | ⟨_, rfl⟩ <;> decide

end Csdl
