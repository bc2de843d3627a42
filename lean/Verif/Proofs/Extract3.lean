import Verif.Proofs.Extract2
/-
Moving the last statements of the main method to a submodel (C105): what must be given.
-/
namespace Csdl.Prog
open Csdl Csdl.Arith
variable {K F : Type}

theorem exists_creates (c : Body K F) {x : Nat} (h : x < numVars (c.stmts 0)) : ∃ m s, c.Has m s ∧ m ≤ x ∧ x < m + s.count := by
  obtain ⟨j, _, m, s, h1, h2, h3⟩ := created_before c (c.stmts 0).length x (by rw [List.take_length]; exact h)
  exact ⟨m, s, List.mem_of_getElem? h1, h2, h3⟩

/-- a variable that matters -/
def Matters (b : Body K F) (q : List Name × Nat) : Prop := ∃ c, BAt b q.1 c ∧ c.Live q.2

/-- a variable that is the same is computed -/
def IsComputed (b : Body K F) (q : List Name × Nat) : Prop := ∃ path' b' n s y, BAt b path' b' ∧ b'.Has n s ∧ s.Computes ∧ n ≤ y ∧ y < n + s.count ∧ b'.Live y ∧ Relation.EqvGen (Same b) q (path', y)

theorem IsComputed.joined {b : Body K F} {q r : List Name × Nat} (h : IsComputed b q) (hj : Coupled b r q) : IsComputed b r := by
  obtain ⟨path', b', n, s, y, h1, h2, h3, h4, h5, h6, h7⟩ := h
  exact ⟨path', b', n, s, y, h1, h2, h3, h4, h5, h6, .trans _ _ _ hj h7⟩

theorem Inlined.low {b : Body K F} {μ : Nat → Nat} {k N N0 : Nat} {sub rest : Body K F} (h : Inlined b μ k N sub rest) (hsrc : ∀ y name, b.SourceNamed y name → y < N0) :
    ∀ x, k ≤ x → x < k + numVars (sub.stmts k) → μ x < N0 ∨ N ≤ μ x := by
  induction h with
  | done => intro x h1 h2; simp only [Body.stmts, numVars, List.map_nil, List.sum_nil] at h2; omega
  | @known k N y name shape sub rest val h1 h2 h3 _ ih =>
    intro x g1 g2
    rw [Body.stmts, numVars_cons] at g2
    have hc : (Stmt.declare name shape val : Stmt K F).count = 1 := rfl
    rw [hc] at g2
    by_cases hx : x = k
    · subst hx; rw [h3]; exact Or.inl (hsrc _ _ h1)
    · exact ih x (by omega) (by omega)
  | @stmt k N s sub rest h1 _ ih =>
    intro x g1 g2
    rw [Body.stmts, numVars_cons] at g2
    dsimp only at g2
    by_cases hx : x < k + s.count
    · have := h1 (x - k) (by omega)
      rw [show k + (x - k) = x by omega] at this
      omega
    · rcases ih x (by omega) (by omega) with h | h <;> omega

/-- different variables stay different, apart from those that become variables of the main model -/
theorem Inlined.injective {b : Body K F} {μ : Nat → Nat} {k N N0 : Nat} {sub rest : Body K F} (h : Inlined b μ k N sub rest) (hsrc : ∀ y name, b.SourceNamed y name → y < N0) :
    N0 ≤ N → ∀ x x', k ≤ x → x < k + numVars (sub.stmts k) → k ≤ x' → x' < k + numVars (sub.stmts k) → N0 ≤ μ x → μ x = μ x' → x = x' := by
  induction h with
  | done => intro _ x x' h1 h2; simp only [Body.stmts, numVars, List.map_nil, List.sum_nil] at h2; omega
  | @known k N y name shape sub rest val h1 h2 h3 _ ih =>
    intro hN x x' g1 g2 g1' g2' hx e
    rw [Body.stmts, numVars_cons] at g2 g2'
    have hc : (Stmt.declare name shape val : Stmt K F).count = 1 := rfl
    rw [hc] at g2 g2'
    have hy := hsrc _ _ h1
    have n1 : x ≠ k := by rintro rfl; omega
    have n2 : x' ≠ k := by rintro rfl; omega
    exact ih hN x x' (by omega) (by omega) (by omega) (by omega) hx e
  | @stmt k N s sub rest h1 hh ih =>
    intro hN x x' g1 g2 g1' g2' hx e
    rw [Body.stmts, numVars_cons] at g2 g2'
    dsimp only at g2 g2'
    have val : ∀ z, k ≤ z → z < k + s.count → μ z = N + (z - k) := by
      intro z z1 z2
      have := h1 (z - k) (by omega)
      rwa [show k + (z - k) = z by omega] at this
    by_cases c1 : x < k + s.count <;> by_cases c2 : x' < k + s.count
    · have e1 := val x g1 c1; have e2 := val x' g1' c2; omega
    · have e1 := val x g1 c1; rcases hh.low hsrc x' (by omega) (by omega) with h | h <;> omega
    · have e1 := val x' g1' c2; rcases hh.low hsrc x (by omega) (by omega) with h | h <;> omega
    · exact ih (by omega) x x' (by omega) (by omega) (by omega) (by omega) hx e

section
variable [Zero K] {b : Body K F} {i : Bool} {n : Name} {sub rest : Body K F} {μ : Nat → Nat} (E : Extract b i n sub rest μ)
include E

theorem Extract.first {x : Nat} (h : b.Live x) : Matters (b.addPromoted i n sub) ([], x) := ⟨_, .here _, (Looks.of_stmts (stmts_addPromoted b i n sub).symm).live h⟩

theorem Extract.second {x : Nat} (h : sub.Live x) : Matters (b.addPromoted i n sub) ([n], x) := ⟨_, E.atSub, h⟩

/-- `v` is what the variable `q` that matters has become -/
def Pre (b : Body K F) (i : Bool) (n : Name) (sub : Body K F) (μ : Nat → Nat) (q v : List Name × Nat) : Prop := Matters (b.addPromoted i n sub) q ∧ moved n μ q = v

theorem Extract.preFirst {x : Nat} (h : b.Live x) : Pre b i n sub μ ([], x) ([], x) := ⟨E.first h, by simp [moved]⟩

theorem Extract.preSecond {x : Nat} (h : sub.Live x) : Pre b i n sub μ ([n], x) ([], μ x) := ⟨E.second h, by simp [moved]⟩

/-- a variable of the submodel that has become one of the main model -/
theorem Extract.known {x : Nat} (h : sub.Live x) (hx : μ x < numVars (b.stmts 0)) : b.Live (μ x) ∧ Coupled (b.addPromoted i n sub) ([n], x) ([], μ x) := by
  obtain ⟨m, s, h1, h2, h3⟩ := exists_creates sub (E.okSub.live_lt h)
  rcases E.inl.to m s h1 with ⟨name, shape, val, rfl, g, _⟩ | ⟨m', g1, g2⟩
  · simp only [Stmt.count] at h3
    have : m = x := by omega
    subst this
    have hl : b.Live (μ m) := g.elim (fun ⟨s, g⟩ => .input g) .output
    refine ⟨hl, .rel _ _ (.name name ?_ ?_)⟩
    · have hn : sub.Named m name := Or.inl ⟨shape, Or.inr (declared_has.2 ⟨val, h1⟩)⟩
      obtain ⟨k, w, k1, k2⟩ := named_vars hn
      have hs : (⟨n, none, sub.toModel⟩ : Subgraph) ∈ (b.addPromoted i n sub).toSubs.toList := mem_toSubs.2 ⟨sub, by rw [subs_addPromoted]; simp, rfl⟩
      have hdf := dotFree_body E.split.methods E.split.names
      have hdot : '.' ∉ w.name := by
        by_contra hc
        exact (promoted_good _ hdf (PromotedAs.stay hs (PromotedAs.here (subs := sub.toSubs) k1) (fun h => h hc))).2 hc
      exact ⟨sub, name, k, w, E.atSub, h, hn, k2 ▸ .up hs (PromotedAs.here (subs := sub.toSubs) k1) hdot, k2⟩
    · have hn : b.Named (μ m) name := named_of_source g
      obtain ⟨k, w, k1, k2⟩ := named_vars hn
      exact ⟨_, name, k, w, .here _, (Looks.of_stmts (stmts_addPromoted b i n sub).symm).live hl, by unfold Body.Named; rw [stmts_addPromoted]; exact hn, k2 ▸ .here (by rw [locals_addPromoted]; exact k1), k2⟩
  · have := stmts_ge _ _ _ _ g1
    have e := g2 (x - m) (by omega)
    rw [show m + (x - m) = x by omega] at e
    omega

theorem Extract.preUnique {q q' v : List Name × Nat} (h : Pre b i n sub μ q v) (h' : Pre b i n sub μ q' v) : Coupled (b.addPromoted i n sub) q q' := by
  obtain ⟨⟨c, h1, h2⟩, h3⟩ := h
  obtain ⟨⟨c', h1', h2'⟩, h3'⟩ := h'
  obtain ⟨path, x⟩ := q
  obtain ⟨path', x'⟩ := q'
  have L := Looks.of_stmts (stmts_addPromoted b i n sub)
  have lt : ∀ {x}, b.Live x → x < numVars (b.stmts 0) := by
    intro x hx
    have := E.okSplit.live_lt ((Looks.of_stmts (stmts_addPromoted b i n sub).symm).live hx)
    rwa [stmts_addPromoted] at this
  rw [← h3'] at h3
  rcases E.at' h1 with ⟨rfl, rfl⟩ | ⟨g1, g2, g3⟩ | ⟨rfl, rfl⟩ <;> rcases E.at' h1' with ⟨rfl, rfl⟩ | ⟨g1', g2', g3'⟩ | ⟨rfl, rfl⟩
  · simp [moved] at h3; subst h3; exact .refl _
  · simp [moved, g2'] at h3; exact absurd h3.1 g1'
  · simp [moved] at h3
    subst h3
    exact .symm _ _ (E.known h2' (lt (L.live h2))).2
  · simp [moved, g2] at h3; exact absurd h3.1 g1
  · simp only [moved, g2, g2', if_false] at h3; rw [h3]; exact .refl _
  · simp [moved, g2] at h3; exact absurd h3.1 g1
  · simp [moved] at h3
    subst h3
    exact (E.known h2 (lt (L.live h2'))).2
  · simp [moved, g2'] at h3; exact absurd h3.1 g1'
  · simp [moved] at h3
    by_cases hx : μ x < numVars (b.stmts 0)
    · exact .trans _ _ _ (E.known h2 hx).2 (h3 ▸ .symm _ _ (E.known h2' (h3 ▸ hx)).2)
    · have := E.inl.injective (fun y name h => E.sourceLt h) (Nat.le_refl _) x x' (Nat.zero_le _) (by have := E.okSub.live_lt h2; omega) (Nat.zero_le _) (by have := E.okSub.live_lt h2'; omega) (by omega) h3
      rw [this]; exact .refl _

/-- `u` and `v` come from variables that are the same, or both are computed -/
def Tied (b : Body K F) (i : Bool) (n : Name) (sub : Body K F) (μ : Nat → Nat) (u v : List Name × Nat) : Prop :=
  u = v ∨ ∃ q r, Pre b i n sub μ q u ∧ Pre b i n sub μ r v ∧ (Coupled (b.addPromoted i n sub) q r ∨ IsComputed (b.addPromoted i n sub) q ∧ IsComputed (b.addPromoted i n sub) r)

omit [Zero K] E in
theorem Tied.symm {u v : List Name × Nat} (h : Tied b i n sub μ u v) : Tied b i n sub μ v u := by
  rcases h with rfl | ⟨q, r, h1, h2, h3 | ⟨h3, h4⟩⟩
  · exact Or.inl rfl
  · exact Or.inr ⟨r, q, h2, h1, Or.inl (.symm _ _ h3)⟩
  · exact Or.inr ⟨r, q, h2, h1, Or.inr ⟨h4, h3⟩⟩

theorem Extract.tiedTrans {u v w : List Name × Nat} (h : Tied b i n sub μ u v) (h' : Tied b i n sub μ v w) : Tied b i n sub μ u w := by
  rcases h with rfl | ⟨q, r, h1, h2, h3⟩
  · exact h'
  · rcases h' with rfl | ⟨r', t, h1', h2', h3'⟩
    · exact Or.inr ⟨q, r, h1, h2, h3⟩
    · have hu := E.preUnique h2 h1'
      refine Or.inr ⟨q, t, h1, h2', ?_⟩
      rcases h3 with h3 | ⟨h3, h4⟩ <;> rcases h3' with h3' | ⟨h3', h4'⟩
      · exact Or.inl (.trans _ _ _ h3 (.trans _ _ _ hu h3'))
      · exact Or.inr ⟨h3'.joined (.trans _ _ _ h3 hu), h4'⟩
      · exact Or.inr ⟨h3, h4.joined (.symm _ _ (.trans _ _ _ hu h3'))⟩
      · exact Or.inr ⟨h3, h4'⟩

omit [Zero K] E in
theorem live_computed {c d : Body K F} {path : List Name} (hc : BAt c path d) {m y : Nat} {s : Stmt K F} (h : d.Has m s) (hs : s.Computes) (h1 : m ≤ y) (h2 : y < m + s.count) (hl : d.Live y) : IsComputed c (path, y) :=
  ⟨path, d, m, s, y, hc, h, hs, h1, h2, hl, .refl _⟩

theorem Extract.firstComputed {m y : Nat} {s : Stmt K F} (h : b.Has m s) (hs : s.Computes) (h1 : m ≤ y) (h2 : y < m + s.count) (hl : b.Live y) : IsComputed (b.addPromoted i n sub) ([], y) :=
  live_computed (.here _) (E.hasSplit.2 h) hs h1 h2 ((Looks.of_stmts (stmts_addPromoted b i n sub).symm).live hl)

omit [Zero K] E in
theorem onVars_computes (s : Stmt K F) : (s.onVars μ).Computes ↔ s.Computes := by
  cases s with
  | expr i => cases i <;> exact Iff.rfl
  | _ => exact Iff.rfl

variable (hb : ∀ x < numVars (b.stmts 0), b.Live x) (hsub : ∀ x < numVars (sub.stmts 0), sub.Live x)
include hb hsub

/-- a computed variable of the program without the submodel -/
theorem Extract.computedBack {m y : Nat} {s : Stmt K F} (h : (b.append rest).Has m s) (hs : s.Computes) (h1 : m ≤ y) (h2 : y < m + s.count) :
    ∃ q, Pre b i n sub μ q ([], y) ∧ IsComputed (b.addPromoted i n sub) q := by
  rcases E.from h with g | ⟨_, m0, t, g1, rfl, g3⟩
  · have := has_bound (c := b) g
    have hl := hb y (by omega)
    exact ⟨_, E.preFirst hl, E.firstComputed g hs h1 h2 hl⟩
  · rw [onVars_count] at h2
    have := has_bound (c := sub) g1
    have e := g3 (y - m) (by omega)
    rw [show m + (y - m) = y by omega] at e
    have hl := hsub (m0 + (y - m)) (by omega)
    have hpre := E.preSecond hl
    rw [e] at hpre
    exact ⟨([n], m0 + (y - m)), hpre, live_computed E.atSub g1 ((onVars_computes t).1 hs) (by omega) (by omega) hl⟩

theorem Extract.aliasBack {x y : Nat} (h : Alias ((b.append rest).stmts 0) x y) : Tied b i n sub μ ([], x) ([], y) := by
  induction h with
  | refl x => exact Or.inl rfl
  | symm _ ih => exact ih.symm
  | trans _ _ ih1 ih2 => exact E.tiedTrans ih1 ih2
  | @plus x y h =>
    rcases E.from h with g | ⟨_, m0, t, g1, g2, g3⟩
    · have h1 := E.operandLt g (x := y) (by simp [Stmt.operands, Instr.first])
      have h2 := has_bound (c := b) g
      simp only [Stmt.count] at h2
      have l1 := hb x (by omega)
      have l2 := hb y (by omega)
      have L := Looks.of_stmts (stmts_addPromoted b i n sub).symm
      exact Or.inr ⟨_, _, E.preFirst l1, E.preFirst l2, Or.inl (.rel _ _ (.alias _ (.here _) (L.live l1) (L.live l2) (.plus (by rw [stmts_addPromoted]; exact g))))⟩
    · cases t with
      | expr j =>
        cases j <;> cases g2
        rename_i y0
        have e := g3 0 (by simp [Stmt.count])
        simp only [Nat.add_zero] at e
        have h1 := E.okSub.operand_lt g1 (y := y0) (by simp [Stmt.operands, Instr.first])
        have h2 := has_bound (c := sub) g1
        simp only [Stmt.count] at h2
        have l1 := hsub m0 (by omega)
        have l2 := hsub y0 (by omega)
        exact Or.inr ⟨([n], m0), ([n], y0), e ▸ E.preSecond l1, E.preSecond l2, Or.inl (.rel _ _ (.alias _ E.atSub l1 l2 (.plus g1)))⟩
      | _ => cases g2
  | @part x y u v k l h1 h2 _ _ _ =>
    obtain ⟨q, g1, g2⟩ := E.computedBack hb hsub h1 trivial (Nat.le_refl x) (by simp [Stmt.count])
    obtain ⟨r, g3, g4⟩ := E.computedBack hb hsub h2 trivial (Nat.le_refl y) (by simp [Stmt.count])
    exact Or.inr ⟨q, r, g1, g3, Or.inr ⟨g2, g4⟩⟩

/-- a variable with a name -/
theorem Extract.namedBack {x : Nat} {name : Name} (h : (b.append rest).Named x name) : (b.Named x name ∧ b.Live x) ∨ ∃ x0, μ x0 = x ∧ sub.Named x0 name ∧ sub.Live x0 := by
  have first : b.Named x name → b.Named x name ∧ b.Live x := fun h => ⟨h, hb x (E.namedLt h)⟩
  have second : ∀ x0, sub.Named x0 name → sub.Named x0 name ∧ sub.Live x0 := fun x0 h => ⟨h, hsub x0 (E.okSub.named_lt h)⟩
  rcases h with ⟨s, h | h⟩ | h
  · obtain ⟨v, h⟩ := input_has.1 h
    rcases E.from h with g | ⟨_, m0, t, g1, g2, g3⟩
    · exact Or.inl (first (Or.inl ⟨s, Or.inl (input_has.2 ⟨v, g⟩)⟩))
    · cases t <;> cases g2
      exact Or.inr ⟨m0, by simpa using g3 0 (by simp [Stmt.count]), second m0 (Or.inl ⟨s, Or.inl (input_has.2 ⟨v, g1⟩)⟩)⟩
  · obtain ⟨v, h⟩ := declared_has.1 h
    rcases E.from h with g | ⟨_, m0, t, g1, g2, g3⟩
    · exact Or.inl (first (Or.inl ⟨s, Or.inr (declared_has.2 ⟨v, g⟩)⟩))
    · cases t <;> cases g2
      exact Or.inr ⟨m0, by simpa using g3 0 (by simp [Stmt.count]), second m0 (Or.inl ⟨s, Or.inr (declared_has.2 ⟨v, g1⟩)⟩)⟩
  · rcases output_has.1 h with ⟨m, h⟩ | ⟨s, v, h⟩
    · rcases E.from h with g | ⟨_, m0, t, g1, g2, g3⟩
      · exact Or.inl (first (Or.inr (output_has.2 (Or.inl ⟨m, g⟩))))
      · cases t <;> cases g2
        exact Or.inr ⟨_, rfl, second _ (Or.inr (output_has.2 (Or.inl ⟨m0, g1⟩)))⟩
    · rcases E.from h with g | ⟨_, m0, t, g1, g2, g3⟩
      · exact Or.inl (first (Or.inr (output_has.2 (Or.inr ⟨s, v, g⟩))))
      · cases t <;> cases g2
        exact Or.inr ⟨m0, by simpa using g3 0 (by simp [Stmt.count]), second m0 (Or.inr (output_has.2 (Or.inr ⟨s, v, g1⟩)))⟩

theorem Extract.hasNameBack {path : List Name} {x : Nat} {p : Name} (h : HasName (b.append rest) path x p) : ∃ q, Pre b i n sub μ q (path, x) ∧ HasName (b.addPromoted i n sub) q.1 q.2 p := by
  obtain ⟨c, name, k, w, h1, h2, h3, h4, h5⟩ := h
  by_cases hp : path = []
  · subst hp
    cases h1
    have e : p = name := by
      rcases E.promotedBack h4 with ⟨_, e, _⟩ | h
      · rw [e, h5]
      · rcases E.promoted h with ⟨_, _, e⟩ | ⟨e, _⟩ | ⟨e, _⟩
        · rw [e, h5]
        · exact absurd rfl e
        · cases e
    subst e
    rcases E.namedBack hb hsub h3 with ⟨g1, g2⟩ | ⟨x0, rfl, g1, g2⟩
    · obtain ⟨k', w', k1, k2⟩ := named_vars g1
      exact ⟨_, E.preFirst g2, _, p, k', w', .here _, (Looks.of_stmts (stmts_addPromoted b i n sub).symm).live g2, by unfold Body.Named; rw [stmts_addPromoted]; exact g1, k2 ▸ .here (by rw [locals_addPromoted]; exact k1), k2⟩
    · obtain ⟨k', w', k1, k2⟩ := named_vars g1
      have hs : (⟨n, none, sub.toModel⟩ : Subgraph) ∈ (b.addPromoted i n sub).toSubs.toList := mem_toSubs.2 ⟨sub, by rw [subs_addPromoted]; simp, rfl⟩
      have hdf := dotFree_body E.split.methods E.split.names
      have hdot : '.' ∉ w'.name := by
        by_contra hc
        exact (promoted_good _ hdf (PromotedAs.stay hs (PromotedAs.here (subs := sub.toSubs) k1) (fun h => h hc))).2 hc
      exact ⟨_, E.preSecond g2, sub, p, k', w', E.atSub, g2, g1, k2 ▸ .up hs (PromotedAs.here (subs := sub.toSubs) k1) hdot, k2⟩
  · cases h1 with
    | here => exact absurd rfl hp
    | @down _ m pr s path c hs hc =>
      rw [E.subs] at hs
      have hat : BAt (b.addPromoted i n sub) (m :: path) c := .down (by rw [subs_addPromoted]; exact List.mem_append_left _ hs) hc
      have hne : m :: path ≠ [n] := fun e => E.newSub hs (List.cons.inj e).1
      rcases E.promotedBack h4 with ⟨e, _⟩ | h
      · cases e
      · exact ⟨(m :: path, x), ⟨⟨c, hat, h2⟩, by simp only [moved, hne, if_false]⟩, c, name, k, w, hat, h2, h3, h, h5⟩

theorem Extract.sameBack {u v : List Name × Nat} (h : Same (b.append rest) u v) : Tied b i n sub μ u v := by
  cases h with
  | name p h1 h2 =>
    obtain ⟨q, g1, g2⟩ := E.hasNameBack hb hsub h1
    obtain ⟨r, g3, g4⟩ := E.hasNameBack hb hsub h2
    exact Or.inr ⟨q, r, g1, g3, Or.inl (.rel _ _ (.name p g2 g4))⟩
  | connection path c s t p q hc hst hp hq h1 h2 =>
    obtain ⟨q1, g1, g2⟩ := E.hasNameBack hb hsub h1
    obtain ⟨r1, g3, g4⟩ := E.hasNameBack hb hsub h2
    refine Or.inr ⟨q1, r1, g1, g3, Or.inl ?_⟩
    cases hc with
    | here =>
      rcases E.connects.1 hst with hst' | hst'
      · exact .rel _ _ (.connection [] _ s t p q (.here _) (by rw [locals_addPromoted]; exact hst') (E.denotesBack hp) (E.denotesBack hq) g2 g4)
      · obtain ⟨p', q', k1, k2, _⟩ := E.split.connections [n] sub s t E.atSub hst'
        obtain ⟨rfl, y, hy⟩ := E.denotesSub k1
        obtain ⟨rfl, z, hz⟩ := E.denotesSub k2
        obtain ⟨_, w1, _, j1⟩ := E.promotedNamed (E.namedSub hy)
        obtain ⟨_, w2, _, j2⟩ := E.promotedNamed (E.namedSub hz)
        have e1 := E.unique (E.denotesBack hp) (E.denotesBack (.promoted j1))
        have e2 := E.unique (E.denotesBack hq) (E.denotesBack (.promoted j2))
        subst e1 e2
        exact .rel _ _ (.connection [n] sub p q p q E.atSub hst' k1 k2 g2 g4)
    | @down _ m pr s' path c hs hc =>
      rw [E.subs] at hs
      have hat : BAt (b.addPromoted i n sub) (m :: path) c := .down (by rw [subs_addPromoted]; exact List.mem_append_left _ hs) hc
      exact .rel _ _ (.connection _ c s t p q hat hst (E.denotesBack hp) (E.denotesBack hq) g2 g4)
  | @«alias» path x y c hc hl hl' ha =>
    cases hc with
    | here => exact E.aliasBack hb hsub ha
    | @down _ m pr s' path c hs hc =>
      rw [E.subs] at hs
      have hat : BAt (b.addPromoted i n sub) (m :: path) c := .down (by rw [subs_addPromoted]; exact List.mem_append_left _ hs) hc
      have hne : m :: path ≠ [n] := fun e => E.newSub hs (List.cons.inj e).1
      exact Or.inr ⟨_, _, ⟨⟨c, hat, hl⟩, by simp only [moved, hne, if_false]⟩, ⟨⟨c, hat, hl'⟩, by simp only [moved, hne, if_false]⟩, Or.inl (.rel _ _ (.alias c hat hl hl' ha))⟩

theorem Extract.joinedBack {u v : List Name × Nat} (h : Coupled (b.append rest) u v) : Tied b i n sub μ u v := by
  induction h with
  | rel u v h => exact E.sameBack hb hsub h
  | refl u => exact Or.inl rfl
  | symm u v _ ih => exact ih.symm
  | trans u v w _ _ ih1 ih2 => exact E.tiedTrans ih1 ih2

/-- what must be given stays so -/
theorem Extract.given {path : List Name} {x : Nat} (h : GivenVar (b.addPromoted i n sub) path x) : GivenVar (b.append rest) (moved n μ (path, x)).1 (moved n μ (path, x)).2 := by
  obtain ⟨⟨c, h1, h2⟩, h3⟩ := h
  have hpre : Pre b i n sub μ (path, x) (moved n μ (path, x)) := ⟨⟨c, h1, h2⟩, rfl⟩
  have not : ¬ IsComputed (b.addPromoted i n sub) (path, x) := by
    rintro ⟨path', b', m, s, y, k1, k2, k3, k4, k5, k6, k7⟩
    exact h3 path' b' m s y k1 k2 k3 k4 k5 k6 k7
  refine ⟨?_, ?_⟩
  · rcases E.at' h1 with ⟨rfl, rfl⟩ | ⟨g1, g2, g3⟩ | ⟨rfl, rfl⟩
    · exact ⟨_, by simp only [moved, reduceCtorEq, if_false]; exact .here _, E.liveFirst ((Looks.of_stmts (stmts_addPromoted b i n sub)).live h2)⟩
    · simp only [moved, g2, if_false]; exact ⟨c, g3, h2⟩
    · simp only [moved, if_true]; exact ⟨_, .here _, E.liveSub h2⟩
  · intro path' b' m s y k1 k2 k3 k4 k5 k6 k7
    have target : ∃ r, Pre b i n sub μ r (path', y) ∧ IsComputed (b.addPromoted i n sub) r := by
      cases k1 with
      | here => exact E.computedBack hb hsub k2 k3 k4 k5
      | @down _ m' pr s' path c hs hc =>
        rw [E.subs] at hs
        have hat : BAt (b.addPromoted i n sub) (m' :: path) b' := .down (by rw [subs_addPromoted]; exact List.mem_append_left _ hs) hc
        have hne : m' :: path ≠ [n] := fun e => E.newSub hs (List.cons.inj e).1
        exact ⟨_, ⟨⟨b', hat, k6⟩, by simp only [moved, hne, if_false]⟩, live_computed hat k2 k3 k4 k5 k6⟩
    obtain ⟨r, r1, r2⟩ := target
    rcases E.joinedBack hb hsub k7 with e | ⟨q, r', g1, g2, g3 | ⟨g3, _⟩⟩
    · exact not (r2.joined (E.preUnique hpre (by rw [show (moved n μ (path, x)) = (path', y) from e]; exact r1)))
    · exact not (r2.joined (.trans _ _ _ (E.preUnique hpre g1) (.trans _ _ _ g3 (E.preUnique g2 r1))))
    · exact not (g3.joined (E.preUnique hpre g1))

end
end Csdl.Prog
