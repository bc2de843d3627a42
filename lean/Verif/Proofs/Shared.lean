import Verif.Spec.Shared
import Verif.Proofs.Compile2
/-
Lemmas for C89: the unfolded hierarchy.
-/
namespace Csdl

/-- `SubUse subs next s k`: the submodel `s` of the list has the use number `k`, if the first one has the number `next` -/
inductive SubUse : OSubs → Nat → OSub → Nat → Prop
  | head (i p m rest next) : SubUse (.cons i p m rest) next ⟨i, p, m⟩ next
  | tail {i p m rest next s k} : SubUse rest (next + m.size) s k → SubUse (.cons i p m rest) next s k

/-- `UseAt H m k path k' m'`: if `m` is use number `k`, then the model `m'` at `path` is use number `k'` -/
inductive UseAt (H : Objs) : OModel → Nat → List Name → Nat → OModel → Prop
  | here (m k) : UseAt H m k [] k m
  | down {m k s k1 path k' m'} : SubUse m.osubs (k + 1) s k1 → UseAt H s.model k1 path k' m' → UseAt H m k ((H s.id).name :: path) k' m'

theorem OModel.size_eq (m : OModel) : m.size = 1 + m.osubs.size := by cases m; rfl

theorem SubUse.mem {subs next s k} (h : SubUse subs next s k) : s ∈ subs.toList := by
  induction h with
  | head => simp [OSubs.toList]
  | tail _ ih => simp [OSubs.toList, ih]

theorem SubUse.range {subs next s k} (h : SubUse subs next s k) : next ≤ k ∧ k + s.model.size ≤ next + subs.size := by
  induction h with
  | head => simp [OSubs.size]
  | tail _ ih => simp only [OSubs.size]; omega

theorem SubUse.total {subs : OSubs} {s : OSub} : ∀ {next}, s ∈ subs.toList → ∃ k, SubUse subs next s k := by
  match subs with
  | .nil => intro next h; simp [OSubs.toList] at h
  | .cons i p m rest =>
    intro next h
    simp only [OSubs.toList, List.mem_cons] at h
    rcases h with rfl | h
    · exact ⟨_, .head i p m rest next⟩
    · obtain ⟨k, hk⟩ := SubUse.total (subs := rest) (next := next + m.size) h
      exact ⟨k, .tail hk⟩

theorem OModel.size_pos (m : OModel) : 0 < m.size := by rw [OModel.size_eq]; omega

theorem SubUse.inj {subs next s k s' k' j} (h : SubUse subs next s k) (h' : SubUse subs next s' k') (h1 : k ≤ j ∧ j < k + s.model.size) (h2 : k' ≤ j ∧ j < k' + s'.model.size) : s = s' ∧ k = k' := by
  induction h generalizing s' k' with
  | head i p m rest next =>
    cases h' with
    | head => exact ⟨rfl, rfl⟩
    | tail h' => have := h'.range; dsimp only at h1; omega
  | @tail i p m rest next s k h ih =>
    cases h' with
    | head => have := h.range; dsimp only at h2; omega
    | tail h' => exact ih h' h1 h2

theorem UseAt.range {H m k path k' m'} (h : UseAt H m k path k' m') : k ≤ k' ∧ k' + m'.size ≤ k + m.size := by
  induction h with
  | here => simp
  | @down m k s k1 path k' m' hs _ ih =>
    have := hs.range
    rw [OModel.size_eq m]
    omega

theorem UseAt.inj {H m k path k' m'} (h : UseAt H m k path k' m') : ∀ {path2 m2}, UseAt H m k path2 k' m2 → path = path2 ∧ m' = m2 := by
  induction h with
  | here m k =>
    intro path2 m2 h2
    cases h2 with
    | here => exact ⟨rfl, rfl⟩
    | down hs h2 => have := hs.range; have := h2.range; omega
  | @down m k s k1 path k' m' hs h ih =>
    intro path2 m2 h2
    cases h2 with
    | here => have := hs.range; have := h.range; omega
    | @down _ _ s2 k2 path2 _ _ hs2 h2 =>
      have r1 := h.range
      have r2 := h2.range
      have p1 := m'.size_pos
      have p2 := m2.size_pos
      obtain ⟨rfl, rfl⟩ := hs.inj hs2 (j := k') (by omega) (by omega)
      obtain ⟨rfl, rfl⟩ := ih h2
      exact ⟨rfl, rfl⟩

theorem UseAt.oat {H m k path k' m'} (h : UseAt H m k path k' m') : OAt H m path m' := by
  induction h with
  | here => exact .here _
  | down hs _ ih => exact .down (by rw [OModel.subs_eq]; exact hs.mem) ih

theorem OAt.use {H m path m'} (h : OAt H m path m') : ∀ k, ∃ k', UseAt H m k path k' m' := by
  induction h with
  | here m => exact fun k => ⟨k, .here m k⟩
  | @down m s path m' hs _ ih =>
    intro k
    rw [OModel.subs_eq] at hs
    obtain ⟨k1, h1⟩ := SubUse.total (next := k + 1) hs
    obtain ⟨k', h'⟩ := ih k1
    exact ⟨k', .down h1 h'⟩

/-! ### objects of the unfolded hierarchy -/

variable {H : Objs} {n : Nat}

theorem uses_at (H : Objs) (k : Nat) {i : Nat} (hi : i < n) : H.uses n (k * n + i) = { H i with deps := (H i).deps.map (k * n + ·), outs := (H i).outs.map (k * n + ·) } := by
  have h1 : (k * n + i) % n = i := by rw [Nat.mul_add_mod_self_right]; exact Nat.mod_eq_of_lt hi
  have h2 : (k * n + i) / n = k := by
    have hn : 0 < n := by omega
    rw [Nat.add_comm, Nat.add_mul_div_right _ _ hn, Nat.div_eq_of_lt hi]; omega
  simp only [Objs.uses, h1, h2]

theorem OModel.unfold_inputs (N k : Nat) (m : OModel) : (m.unfold N k).inputs = m.inputs.map (k * N + ·) := by cases m; rfl
theorem OModel.unfold_outputs (N k : Nat) (m : OModel) : (m.unfold N k).outputs = m.outputs.map (k * N + ·) := by cases m; rfl
theorem OModel.unfold_declared (N k : Nat) (m : OModel) : (m.unfold N k).declared = m.declared.map (k * N + ·) := by cases m; rfl
theorem OModel.unfold_connections (N k : Nat) (m : OModel) : (m.unfold N k).connections = m.connections := by cases m; rfl
theorem OModel.unfold_osubs (N k : Nat) (m : OModel) : (m.unfold N k).osubs = m.osubs.unfold N k (k + 1) := by cases m; rfl
theorem OModel.unfold_vars (N k : Nat) (m : OModel) : (m.unfold N k).vars = m.vars.map (k * N + ·) := by
  simp [OModel.vars, OModel.unfold_inputs, OModel.unfold_outputs, OModel.unfold_declared]

theorem mem_unfold_subs {N k : Nat} {s' : OSub} : ∀ {subs : OSubs} {next}, s' ∈ (subs.unfold N k next).toList ↔ ∃ s k1, SubUse subs next s k1 ∧ s' = ⟨k * N + s.id, s.promotes, s.model.unfold N k1⟩
  | .nil, next => by
    simp only [OSubs.unfold, OSubs.toList, List.not_mem_nil, false_iff]
    rintro ⟨s, k1, h, _⟩; cases h
  | .cons i p m rest, next => by
    simp only [OSubs.unfold, OSubs.toList, List.mem_cons]
    rw [mem_unfold_subs (subs := rest)]
    constructor
    · rintro (rfl | ⟨s, k1, h, rfl⟩)
      · exact ⟨_, _, .head i p m rest next, rfl⟩
      · exact ⟨s, k1, .tail h, rfl⟩
    · rintro ⟨s, k1, h, rfl⟩
      cases h with
      | head => exact Or.inl rfl
      | tail h => exact Or.inr ⟨s, k1, h, rfl⟩

/-- identities of the objects of the hierarchy are below `n` -/
def AllBelow (H : Objs) (n : Nat) (root : OModel) : Prop := ∀ path m, OAt H root path m → (∀ c ∈ m.vars, c < n) ∧ ∀ s ∈ m.subs, s.id < n

theorem AllBelow.sub {m : OModel} (h : AllBelow H n m) {s : OSub} (hs : s ∈ m.subs) : AllBelow H n s.model := fun path m' hm => h _ m' (.down hs hm)

theorem UseAt.unfold {m k path k' m'} (h : UseAt H m k path k' m') (hb : AllBelow H n m) : OAt (H.uses n) (m.unfold n k) path (m'.unfold n k') := by
  induction h with
  | here => exact .here _
  | @down m k s k1 path k' m' hs _ ih =>
    have hmem : s ∈ m.subs := by rw [OModel.subs_eq]; exact hs.mem
    have hid := (hb [] m (.here m)).2 s hmem
    have hn : (H.uses n (k * n + s.id)).name = (H s.id).name := by rw [uses_at H k hid]
    rw [← hn]
    refine OAt.down (s := ⟨k * n + s.id, s.promotes, s.model.unfold n k1⟩) ?_ (ih (hb.sub hmem))
    rw [OModel.subs_eq, OModel.unfold_osubs, mem_unfold_subs]
    exact ⟨s, k1, hs, rfl⟩

theorem OAt.ofUnfold {M path m''} (h : OAt (H.uses n) M path m'') : ∀ {m k}, M = m.unfold n k → AllBelow H n m → ∃ k' m', UseAt H m k path k' m' ∧ m'' = m'.unfold n k' := by
  induction h with
  | here M => rintro m k rfl _; exact ⟨k, m, .here m k, rfl⟩
  | @down M s' path m'' hs _ ih =>
    rintro m k rfl hb
    rw [OModel.subs_eq, OModel.unfold_osubs, mem_unfold_subs] at hs
    obtain ⟨s, k1, hs, rfl⟩ := hs
    have hmem : s ∈ m.subs := by rw [OModel.subs_eq]; exact hs.mem
    have hid := (hb [] m (.here m)).2 s hmem
    obtain ⟨k', m', h1, h2⟩ := ih rfl (hb.sub hmem)
    refine ⟨k', m', ?_, h2⟩
    have hn : (H.uses n (k * n + s.id)).name = (H s.id).name := by rw [uses_at H k hid]
    dsimp only
    rw [hn]
    exact .down hs h1

theorem varInfo_uses (k : Nat) {l : List Nat} (hl : ∀ c ∈ l, c < n) : (l.map (k * n + ·)).map (H.uses n).varInfo = l.map H.varInfo := by
  rw [List.map_map]
  refine List.map_congr_left fun c hc => ?_
  simp only [Function.comp, Objs.varInfo, uses_at H k (hl c hc)]

mutual
theorem toModel_unfold (m : OModel) (k : Nat) (hb : AllBelow H n m) : (m.unfold n k).toModel (H.uses n) = m.toModel H := by
  match m with
  | .mk i o d c dv cn ob subs =>
    have hv := (hb [] _ (.here _)).1
    simp only [OModel.vars, OModel.inputs, OModel.outputs, OModel.declared] at hv
    simp only [OModel.unfold, OModel.toModel]
    rw [varInfo_uses k (fun c hc => hv c (by simp [hc])), varInfo_uses k (fun c hc => hv c (by simp [hc])), varInfo_uses k (fun c hc => hv c (by simp [hc])),
      toSubs_unfold subs k (k + 1) (fun s hs => ⟨(hb [] _ (.here _)).2 s hs, hb.sub (m := .mk i o d c dv cn ob subs) hs⟩)]
theorem toSubs_unfold (subs : OSubs) (k next : Nat) (hb : ∀ s ∈ subs.toList, s.id < n ∧ AllBelow H n s.model) : (subs.unfold n k next).toSubs (H.uses n) = subs.toSubs H := by
  match subs with
  | .nil => rfl
  | .cons i p m rest =>
    simp only [OSubs.unfold, OSubs.toSubs]
    have h1 := hb ⟨i, p, m⟩ (by simp [OSubs.toList])
    rw [toModel_unfold m next h1.2, toSubs_unfold rest k (next + m.size) (fun s hs => hb s (by simp [OSubs.toList, hs])), uses_at H k h1.1]
end

/-! ### one use of one model -/

theorem add_inj {k i j : Nat} (h : k * n + i = k * n + j) : i = j := by omega

/-- objects of different uses are different -/
theorem use_inj {k k' i j : Nat} (hi : i < n) (hj : j < n) (h : k * n + i = k' * n + j) : k = k' ∧ i = j := by
  have h1 : (k * n + i) % n = i := by rw [Nat.mul_add_mod_self_right]; exact Nat.mod_eq_of_lt hi
  have h2 : (k' * n + j) % n = j := by rw [Nat.mul_add_mod_self_right]; exact Nat.mod_eq_of_lt hj
  have hn : 0 < n := by omega
  have e : i = j := by rw [← h1, ← h2, h]
  subst e
  refine ⟨Nat.eq_of_mul_eq_mul_right hn (by omega), rfl⟩

theorem needs_below {m : OModel} (hb : Bounded H.heap n (m.outputs ++ m.declared)) {c : Nat} (h : m.Needs H c) : c < n := by
  induction h with
  | leaf c hc => exact hb.leaves c hc
  | dep v u _ hu ih => exact hb.deps v ih u hu
  | out u v _ _ hv ih => exact hb.outs u ih v hv

theorem needs_unfold {m : OModel} (hb : Bounded H.heap n (m.outputs ++ m.declared)) (k : Nat) {c : Nat} :
    (m.unfold n k).Needs (H.uses n) c ↔ ∃ i, c = k * n + i ∧ m.Needs H i := by
  constructor
  · intro h
    induction h with
    | leaf c hc =>
      rw [OModel.unfold_outputs, OModel.unfold_declared, ← List.map_append] at hc
      obtain ⟨i, hi, rfl⟩ := List.mem_map.1 hc
      exact ⟨i, rfl, .leaf i hi⟩
    | dep v u _ hu ih =>
      obtain ⟨i, rfl, hi⟩ := ih
      simp only [Objs.heap, uses_at H k (needs_below hb hi)] at hu
      obtain ⟨j, hj, rfl⟩ := List.mem_map.1 hu
      exact ⟨j, rfl, .dep i j hi hj⟩
    | out u v _ hk hv ih =>
      obtain ⟨i, rfl, hi⟩ := ih
      simp only [Objs.heap, uses_at H k (needs_below hb hi)] at hv hk
      obtain ⟨j, hj, rfl⟩ := List.mem_map.1 hv
      exact ⟨j, rfl, .out i j hi hk hj⟩
  · rintro ⟨i, rfl, h⟩
    induction h with
    | leaf i hi =>
      refine .leaf _ ?_
      rw [OModel.unfold_outputs, OModel.unfold_declared, ← List.map_append]
      exact List.mem_map_of_mem hi
    | dep i j hi hj ih =>
      refine .dep _ _ ih ?_
      simp only [Objs.heap, uses_at H k (needs_below hb hi)]
      exact List.mem_map_of_mem (f := (k * n + ·)) hj
    | out i j hi hk hj ih =>
      refine .out _ _ ih ?_ ?_
      · simp only [Objs.heap, uses_at H k (needs_below hb hi)]; exact hk
      · simp only [Objs.heap, uses_at H k (needs_below hb hi)]
        exact List.mem_map_of_mem (f := (k * n + ·)) hj

theorem mem_add {l : List Nat} {k i : Nat} : k * n + i ∈ l.map (k * n + ·) ↔ i ∈ l := by
  rw [List.mem_map]
  constructor
  · rintro ⟨j, hj, e⟩; rw [← add_inj e]; exact hj
  · intro h; exact ⟨i, h, rfl⟩

variable {m : OModel}

theorem dependsOn_unfold (k : Nat) {i j : Nat} (hi : i < n) (hj : j < n) : DependsOn (H.uses n).heap (k * n + i) (k * n + j) ↔ DependsOn H.heap i j := by
  simp only [DependsOn, Objs.heap, uses_at H k hi, uses_at H k hj, mem_add]

theorem linked_unfold (hb : Bounded H.heap n (m.outputs ++ m.declared)) (k : Nat) {i : Nat} : (m.unfold n k).Linked (H.uses n) (k * n + i) ↔ m.Linked H i := by
  constructor
  · rintro ⟨h1, u, h2, h3⟩
    obtain ⟨i', e, h1⟩ := (needs_unfold hb k).1 h1
    obtain rfl := add_inj e
    obtain ⟨j, rfl, h2'⟩ := (needs_unfold hb k).1 h2
    rw [dependsOn_unfold k (needs_below hb h1) (needs_below hb h2'), dependsOn_unfold k (needs_below hb h2') (needs_below hb h1)] at h3
    exact ⟨h1, j, h2', h3⟩
  · rintro ⟨h1, j, h2, h3⟩
    refine ⟨(needs_unfold hb k).2 ⟨i, rfl, h1⟩, k * n + j, (needs_unfold hb k).2 ⟨j, rfl, h2⟩, ?_⟩
    rw [dependsOn_unfold k (needs_below hb h1) (needs_below hb h2), dependsOn_unfold k (needs_below hb h2) (needs_below hb h1)]
    exact h3

theorem uses_unfold (hb : Bounded H.heap n (m.outputs ++ m.declared)) (hin : ∀ c ∈ m.inputs, c < n) (k : Nat) {c : Nat} :
    (m.unfold n k).Uses (H.uses n) c ↔ ∃ i, c = k * n + i ∧ i < n ∧ m.Uses H i := by
  constructor
  · rintro (h | ⟨h1, y, h2, h3⟩)
    · rw [OModel.unfold_inputs] at h
      obtain ⟨i, hi, rfl⟩ := List.mem_map.1 h
      exact ⟨i, rfl, hin i hi, Or.inl hi⟩
    · obtain ⟨i, rfl, h1'⟩ := (needs_unfold hb k).1 h1
      obtain ⟨j, rfl, _⟩ := (needs_unfold hb k).1 h2.1
      rw [linked_unfold hb] at h2
      rw [uses_at H k (needs_below hb h1'), uses_at H k (needs_below hb h2.1)] at h3
      exact ⟨i, rfl, needs_below hb h1', Or.inr ⟨h1', j, h2, h3⟩⟩
  · rintro ⟨i, rfl, hi, h | ⟨h1, j, h2, h3⟩⟩
    · exact Or.inl (by rw [OModel.unfold_inputs]; exact List.mem_map_of_mem h)
    · refine Or.inr ⟨(needs_unfold hb k).2 ⟨i, rfl, h1⟩, k * n + j, (linked_unfold hb k).2 h2, ?_⟩
      rw [uses_at H k (needs_below hb h1), uses_at H k (needs_below hb h2.1)]
      exact h3

theorem modelOk_unfold (hm : ModelOk H n m) (hin : ∀ c ∈ m.inputs, c < n) (hsub : ∀ s ∈ m.subs, s.id < n) (k size : Nat) (hk : k < size) (hn : 0 < n) : ModelOk (H.uses n) (size * n) (m.unfold n k) := by
  have hb := hm.bounded
  have below : ∀ c, m.Needs H c ∨ c ∈ m.inputs → c < n := fun c hc => hc.elim (needs_below hb) (hin c)
  have vbelow : ∀ c ∈ m.vars, c < n := by
    intro c hc
    simp only [OModel.vars, List.mem_append] at hc
    rcases hc with (hc | hc) | hc
    · exact hin c hc
    · exact hb.leaves c (by simp [hc])
    · exact hb.leaves c (by simp [hc])
  have bound : ∀ k, k < size → ∀ i, i < n → k * n + i < size * n := by
    intro k hk i hi
    calc k * n + i < k * n + n := by omega
      _ = (k + 1) * n := by rw [Nat.succ_mul]
      _ ≤ size * n := Nat.mul_le_mul_right n hk
  have both : ∀ c, (Needed (H.uses n).heap ((m.unfold n k).outputs ++ (m.unfold n k).declared) c ∨ c ∈ (m.unfold n k).inputs) → ∃ i, c = k * n + i ∧ (m.Needs H i ∨ i ∈ m.inputs) := by
    rintro c (hc | hc)
    · obtain ⟨i, rfl, hi⟩ := (needs_unfold hb k).1 hc
      exact ⟨i, rfl, Or.inl hi⟩
    · rw [OModel.unfold_inputs] at hc
      obtain ⟨i, hi, rfl⟩ := List.mem_map.1 hc
      exact ⟨i, rfl, Or.inr hi⟩
  have subs' : ∀ s' ∈ (m.unfold n k).subs, ∃ s ∈ m.subs, s'.id = k * n + s.id := by
    intro s' hs'
    rw [OModel.subs_eq, OModel.unfold_osubs, mem_unfold_subs] at hs'
    obtain ⟨s, k1, hs, rfl⟩ := hs'
    exact ⟨s, by rw [OModel.subs_eq]; exact hs.mem, rfl⟩
  refine ⟨⟨?_, ?_, ?_⟩, ⟨?_, ?_, ?_, ?_⟩, ?_, ?_, ?_, ?_, ?_, ?_, ?_, ?_, ?_, ?_⟩
  · intro c hc
    obtain ⟨i, rfl, hi⟩ := (needs_unfold hb k).1 (.leaf c hc)
    exact bound k hk i (needs_below hb hi)
  · intro c hc u hu
    simp only [Objs.heap, Objs.uses] at hu
    obtain ⟨j, hj, rfl⟩ := List.mem_map.1 hu
    exact bound _ (Nat.div_lt_of_lt_mul (by rw [Nat.mul_comm]; exact hc)) j (hb.deps _ (Nat.mod_lt _ hn) j hj)
  · intro c hc u hu
    simp only [Objs.heap, Objs.uses] at hu
    obtain ⟨j, hj, rfl⟩ := List.mem_map.1 hu
    exact bound _ (Nat.div_lt_of_lt_mul (by rw [Nat.mul_comm]; exact hc)) j (hb.outs _ (Nat.mod_lt _ hn) j hj)
  · intro c hc
    obtain ⟨i, rfl, hi⟩ := (needs_unfold hb k).1 hc
    simp only [Objs.heap, uses_at H k (needs_below hb hi)]
    exact hm.names.kinds i hi
  · intro c hc
    rw [OModel.unfold_inputs] at hc
    obtain ⟨i, hi, rfl⟩ := List.mem_map.1 hc
    simp only [Objs.heap, uses_at H k (hin i hi)]
    exact hm.names.inputVars i hi
  · intro a b ha hb' hn' hk'
    obtain ⟨i, rfl, hi⟩ := both a ha
    obtain ⟨j, rfl, hj⟩ := both b hb'
    simp only [Objs.heap, uses_at H k (below i hi), uses_at H k (below j hj)] at hn' hk'
    rw [hm.names.ops i j hi hj hn' hk']
  · intro s' hs' c hc
    obtain ⟨x, hx, rfl⟩ := List.mem_map.1 hs'
    obtain ⟨s, hs, e⟩ := subs' x hx
    obtain ⟨i, rfl, hi⟩ := both c hc
    rw [e]
    simp only [Objs.heap, uses_at H k (below i hi), uses_at H k (hsub s hs)]
    exact hm.names.subNames s.id (List.mem_map_of_mem hs) i hi
  · intro s' hs'
    obtain ⟨s, hs, e⟩ := subs' s' hs'
    rw [e, uses_at H k (hsub s hs)]
    exact hm.subKinds s hs
  · intro c hc
    rw [OModel.unfold_inputs] at hc
    obtain ⟨i, hi, rfl⟩ := List.mem_map.1 hc
    rw [uses_at H k (hin i hi)]
    exact hm.inputRole i hi
  · intro c hc
    rw [OModel.unfold_outputs] at hc
    obtain ⟨i, hi, rfl⟩ := List.mem_map.1 hc
    rw [uses_at H k (hb.leaves i (by simp [hi]))]
    exact hm.outputRole i hi
  · intro c hc
    rw [OModel.unfold_declared] at hc
    obtain ⟨i, hi, rfl⟩ := List.mem_map.1 hc
    rw [uses_at H k (hb.leaves i (by simp [hi]))]
    exact hm.declaredRole i hi
  · intro c hc hkc u hu
    obtain ⟨i, rfl, hi⟩ := (needs_unfold hb k).1 hc
    have hi' := needs_below hb hi
    rw [uses_at H k hi'] at hkc hu
    obtain ⟨j, hj, rfl⟩ := List.mem_map.1 hu
    rw [uses_at H k (hb.deps i hi' j hj)]
    obtain ⟨a1, a2⟩ := hm.varDeps i hi hkc j hj
    exact ⟨a1, List.mem_map_of_mem (f := (k * n + ·)) a2⟩
  · intro c hc hkc
    obtain ⟨i, rfl, hi⟩ := (needs_unfold hb k).1 hc
    have hi' := needs_below hb hi
    rw [uses_at H k hi'] at hkc ⊢
    obtain ⟨a1, a2⟩ := hm.opDeps i hi hkc
    refine ⟨fun u hu => ?_, fun v hv => ?_⟩
    · obtain ⟨j, hj, rfl⟩ := List.mem_map.1 hu
      rw [uses_at H k (hb.deps i hi' j hj)]
      exact a1 j hj
    · obtain ⟨j, hj, rfl⟩ := List.mem_map.1 hv
      rw [uses_at H k (hb.outs i hi' j hj)]
      exact a2 j hj
  · intro c hc
    rw [OModel.unfold_vars] at hc
    obtain ⟨i, hi, rfl⟩ := List.mem_map.1 hc
    rw [uses_at H k (vbelow i hi)]
    exact hm.userNamed i hi
  · intro c hc hkc hv
    obtain ⟨i, rfl, hi⟩ := (needs_unfold hb k).1 hc
    rw [uses_at H k (needs_below hb hi)] at hkc ⊢
    rw [OModel.unfold_vars, mem_add] at hv
    exact hm.autoNamed i hi hkc hv
  · rw [OModel.unfold_inputs, OModel.unfold_outputs, ← List.map_append]
    exact hm.sources.map fun a b h => add_inj h
  · intro c hc c' hc' hn'
    rw [OModel.unfold_vars] at hc hc'
    obtain ⟨i, hi, rfl⟩ := List.mem_map.1 hc
    obtain ⟨j, hj, rfl⟩ := List.mem_map.1 hc'
    rw [uses_at H k (vbelow i hi), uses_at H k (vbelow j hj)] at hn'
    rw [OModel.unfold_declared, mem_add, mem_add]
    rcases hm.sourceNames i hi j hj hn' with rfl | h
    · exact Or.inl rfl
    · exact Or.inr h

/-! ### the unfolded hierarchy -/

variable {root : OModel}

theorem SharedOk.below (hok : SharedOk H n root) : AllBelow H n root := by
  intro path m hm
  refine ⟨fun c hc => ?_, (hok.bounded path m hm).2⟩
  have hb := (hok.models path m hm).bounded
  simp only [OModel.vars, List.mem_append] at hc
  rcases hc with (hc | hc) | hc
  · exact (hok.bounded path m hm).1 c hc
  · exact hb.leaves c (by simp [hc])
  · exact hb.leaves c (by simp [hc])

theorem SharedOk.toModel (hok : SharedOk H n root) : (root.unfold n 0).toModel (H.uses n) = root.toModel H := toModel_unfold root 0 hok.below

/-- the objects a model owns, in the unfolded hierarchy -/
theorem owns_unfold (hok : SharedOk H n root) {path m} (hm : OAt H root path m) (k : Nat) {c : Nat} (h : (m.unfold n k).Owns (H.uses n) c) : ∃ i, c = k * n + i ∧ i < n := by
  rcases h with h | h | h
  · rw [OModel.unfold_inputs] at h
    obtain ⟨i, hi, rfl⟩ := List.mem_map.1 h
    exact ⟨i, rfl, (hok.bounded path m hm).1 i hi⟩
  · obtain ⟨i, rfl, hi⟩ := (needs_unfold (hok.models path m hm).bounded k).1 h
    exact ⟨i, rfl, needs_below (hok.models path m hm).bounded hi⟩
  · obtain ⟨s', hs', rfl⟩ := List.mem_map.1 h
    rw [OModel.subs_eq, OModel.unfold_osubs, mem_unfold_subs] at hs'
    obtain ⟨s, k1, hs, rfl⟩ := hs'
    exact ⟨s.id, rfl, (hok.bounded path m hm).2 s (by rw [OModel.subs_eq]; exact hs.mem)⟩

theorem SubUse.det {subs next s k k'} (hn : subs.toList.Nodup) (h : SubUse subs next s k) (h' : SubUse subs next s k') : k = k' := by
  induction h generalizing k' with
  | head i p m rest next =>
    cases h' with
    | head => rfl
    | tail h' => exact absurd h'.mem (List.nodup_cons.1 hn).1
  | @tail i p m rest next s k h ih =>
    cases h' with
    | head => exact absurd h.mem (List.nodup_cons.1 hn).1
    | tail h' => exact ih (List.nodup_cons.1 hn).2 h'

theorem dotFree_sub (m : OModel) (hd : DotFree (m.toModel H)) : (m.osubs.toList.map fun x => (H x.id).name).Nodup ∧ ∀ s ∈ m.osubs.toList, DotFree (s.model.toModel H) := by
  constructor
  · rw [OModel.toModel_eq] at hd
    have := (hd [] _ _ (.here _)).2.2
    rw [OSubs.toSubs_toList] at this
    simpa [Function.comp_def] using this
  · intro s hs p l subs hp
    refine hd ((H s.id).name :: p) l subs ?_
    rw [OModel.toModel_eq]
    refine At.down (s := ⟨(H s.id).name, s.promotes, s.model.toModel H⟩) ?_ hp
    rw [OSubs.toSubs_toList, List.mem_map]
    exact ⟨s, hs, rfl⟩

theorem UseAt.det {M K path k m} (h : UseAt H M K path k m) : ∀ {k' m'}, DotFree (M.toModel H) → UseAt H M K path k' m' → k = k' ∧ m = m' := by
  induction h with
  | here m k => intro k' m' _ h'; cases h'; exact ⟨rfl, rfl⟩
  | @down M K s k1 path k m hs h ih =>
    intro k' m' hd h'
    generalize hq : (H s.id).name :: path = q at h'
    cases h' with
    | here => cases hq
    | @down _ _ s2 k2 path2 _ _ hs2 h2 =>
      simp only [List.cons.injEq] at hq
      obtain ⟨hq1, rfl⟩ := hq
      obtain ⟨hnd, hds⟩ := dotFree_sub M hd
      obtain rfl : s = s2 := List.inj_on_of_nodup_map hnd hs.mem hs2.mem hq1
      obtain rfl := hs.det hnd.of_map hs2
      exact ih (hds s hs.mem) h2

theorem SharedOk.objects (hok : SharedOk H n root) (hn : 0 < n) : ObjectsOk (H.uses n) (root.size * n) (root.unfold n 0) := by
  have use : ∀ {path m'}, OAt (H.uses n) (root.unfold n 0) path m' → ∃ k m, UseAt H root 0 path k m ∧ m' = m.unfold n k := fun h => h.ofUnfold rfl hok.below
  refine ⟨?_, by rw [hok.toModel]; exact hok.dotFree, ?_, ?_⟩
  · intro path m' hm'
    obtain ⟨k, m, hu, rfl⟩ := use hm'
    have hb := hok.bounded path m hu.oat
    have := hu.range
    have := m.size_pos
    exact modelOk_unfold (hok.models path m hu.oat) hb.1 hb.2 k root.size (by omega) hn
  · intro path m1 path' m2 h1 h2 c o1 o2
    obtain ⟨k1, m1, u1, rfl⟩ := use h1
    obtain ⟨k2, m2, u2, rfl⟩ := use h2
    obtain ⟨i, e1, hi⟩ := owns_unfold hok u1.oat k1 o1
    obtain ⟨j, e2, hj⟩ := owns_unfold hok u2.oat k2 o2
    obtain ⟨rfl, rfl⟩ := use_inj hi hj (e1.symm.trans e2)
    exact (u1.inj u2).1
  · intro path m1 h1 c hc hk hv
    obtain ⟨k1, m1, u1, rfl⟩ := use h1
    have hb1 := (hok.models path m1 u1.oat).bounded
    obtain ⟨i, rfl, hi⟩ := (needs_unfold hb1 k1).1 hc
    have hi' := needs_below hb1 hi
    rw [uses_at H k1 hi'] at hk ⊢
    rw [OModel.unfold_vars, mem_add] at hv
    obtain ⟨a1, a2, a3⟩ := hok.auto path m1 u1.oat i hi hk hv
    refine ⟨a1, ?_⟩
    intro path' m2 h2 c' hc' hn'
    obtain ⟨k2, m2, u2, rfl⟩ := use h2
    have hb2 := (hok.models path' m2 u2.oat).bounded
    have hc2 : ∃ j, c' = k2 * n + j ∧ j < n ∧ (j ∈ m2.vars ∨ (m2.Needs H j ∧ (H j).kind = .var)) := by
      rcases hc' with hc' | ⟨hc', hk'⟩
      · rw [OModel.unfold_vars] at hc'
        obtain ⟨j, hj, rfl⟩ := List.mem_map.1 hc'
        exact ⟨j, rfl, (hok.below path' m2 u2.oat).1 j hj, Or.inl hj⟩
      · obtain ⟨j, rfl, hj⟩ := (needs_unfold hb2 k2).1 hc'
        rw [uses_at H k2 (needs_below hb2 hj)] at hk'
        exact ⟨j, rfl, needs_below hb2 hj, Or.inr ⟨hj, hk'⟩⟩
    obtain ⟨j, rfl, hj', hj⟩ := hc2
    rw [uses_at H k2 hj'] at hn' ⊢
    obtain rfl := a3 path' m2 u2.oat j hj hn'
    by_cases hkk : k1 = k2
    · subst hkk; exact Or.inl rfl
    · refine Or.inr ⟨?_, ?_, a2, a2⟩
      · rintro rfl
        exact hkk (u1.det hok.dotFree u2).1
      · rw [OModel.unfold_vars, mem_add]
        intro hjv
        exact (hok.models path' m2 u2.oat).userNamed j hjv ((hok.models path m1 u1.oat).autoNamed j hi hk hv)

end Csdl
