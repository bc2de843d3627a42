import Verif.Proofs.Report3
import Verif.Props.EndToEnd

namespace Csdl

/-- one more than the last position at which `v` is a source -/
def lastUse : List (Nat × Nat) → Nat → Nat
  | [], _ => 0
  | e :: L, v => if 0 < lastUse L v then lastUse L v + 1 else if e.1 = v then 1 else 0

theorem lastUse_le (L : List (Nat × Nat)) (v : Nat) : lastUse L v ≤ L.length := by
  induction L with
  | nil => exact le_rfl
  | cons e L ih => unfold lastUse; simp only [List.length_cons]; split_ifs <;> omega

theorem lastUse_pos {L : List (Nat × Nat)} {v : Nat} : 0 < lastUse L v ↔ ∃ e ∈ L, e.1 = v := by
  induction L with
  | nil => simp [lastUse]
  | cons e L ih =>
    unfold lastUse
    simp only [List.mem_cons, exists_eq_or_imp]
    rw [← ih]
    split_ifs with h1 h2
    · simp [h1]
    · simp [h2]
    · simp [h1, h2]

theorem lastUse_lt {L : List (Nat × Nat)} (h : NoReuse L) {v t : Nat} (ht : (v, t) ∈ L) : lastUse L t < lastUse L v := by
  induction L with
  | nil => cases ht
  | cons e L ih =>
    have hL : NoReuse L := ⟨fun e' he' => h.1 e' (by simp [he']), (List.pairwise_cons.1 h.2).2⟩
    rcases List.mem_cons.1 ht with rfl | ht'
    · have h0 : lastUse L t = 0 := by
        by_contra hc
        obtain ⟨e', he', h1⟩ := lastUse_pos.1 (Nat.pos_of_ne_zero hc)
        exact (List.pairwise_cons.1 h.2).1 e' he' h1
      have hne : v ≠ t := h.1 (v, t) (by simp)
      unfold lastUse
      rw [if_neg (show ¬ 0 < lastUse L t by omega), if_neg hne]
      split_ifs with h1 h2
      · omega
      · omega
      · exact absurd rfl h2
    · have := ih hL ht'
      have hv : 0 < lastUse L v := lastUse_pos.2 ⟨_, ht', rfl⟩
      unfold lastUse
      rw [if_pos hv]
      split_ifs <;> omega

theorem mem_connectedTo {done : Dict Nat Nat} (hn : done.keys.Nodup) {v t : Nat} : t ∈ connectedTo done v ↔ done.get? t = some v := by
  unfold connectedTo
  simp only [List.mem_map, List.mem_filter, decide_eq_true_eq]
  constructor
  · rintro ⟨⟨a, b⟩, ⟨h1, rfl⟩, rfl⟩
    exact Dict.mem_get? hn h1
  · intro h
    exact ⟨(t, v), ⟨Dict.get?_some_mem h, rfl⟩, rfl⟩

theorem nodup_connectedTo {done : Dict Nat Nat} (hn : done.keys.Nodup) (v : Nat) : (connectedTo done v).Nodup := by
  unfold connectedTo
  exact List.Nodup.sublist (List.Sublist.map _ List.filter_sublist) hn

section
variable {I : NHeap} {order : List Nat → List Nat} {st : FState} {g' : Graph} {done : Dict Nat Nat} {f f1 f2 : Nat → Nat} {L : List (Nat × Nat)}

theorem FlatParts.target_image (P : FlatParts I order st g' done f f1 f2 L) {x : Nat} (hx : IsTarget I st.graph x) (hno : ∀ s, IsSource I st.graph s → st.pname I s ≠ st.pname I x) :
    IsTarget I st.graph (f1 x) ∧ st.pname I (f1 x) = st.pname I x := by
  obtain ⟨u1, _, _⟩ := uniqueTargets_spec (I := I) (st := st) (tgtNodes I (varNodes I st.graph))
  obtain ⟨a, b, _⟩ := u1 _ _ (P.target1 x hx hno)
  exact ⟨mem_targets.1 a, b⟩

theorem FlatParts.idem (P : FlatParts I order st g' done f f1 f2 L) (x : Nat) : f1 (f1 x) = f1 x := by
  by_cases ht : IsTarget I st.graph x
  · by_cases hs : ∃ s, IsSource I st.graph s ∧ st.pname I s = st.pname I x
    · obtain ⟨s, hs, hn⟩ := hs
      rw [P.source1 x s ht hs hn]
      exact P.fix1 s fun h => hs.2.2 h.2.2
    · push Not at hs
      obtain ⟨a, b⟩ := P.target_image ht hs
      have h1 := P.target1 x ht hs
      have h2 := P.target1 (f1 x) a (fun s h => by rw [b]; exact hs s h)
      rw [b, h1] at h2
      exact (Option.some.inj h2).symm
  · rw [P.fix1 x ht, P.fix1 x ht]

theorem FlatParts.fixed (P : FlatParts I order st g' done f f1 f2 L) {x : Nat} (hx : x ∈ (mergeAuto I order st).nodes) : f1 x = x := by
  obtain ⟨y, _, rfl⟩ := (P.image1.nodes x).1 hx
  exact P.idem y

/-- the rank of a variable: more than those written below it -/
def rankOf (M : Graph) (L : List (Nat × Nat)) (v : Nat) : Nat := if v ∈ M.nodes then lastUse L v + 1 else 0

theorem rankOf_le (M : Graph) (L : List (Nat × Nat)) (v : Nat) : rankOf M L v ≤ L.length + 1 := by
  unfold rankOf
  have := lastUse_le L v
  split_ifs <;> omega

variable (P : FlatParts I order st g' done f f1 f2 L) (hdn : done.keys.Nodup) (hw : st.graph.WF) (ho : ∀ l x, x ∈ order l ↔ x ∈ l)
    (hs : ∀ a b t, IsSource I st.graph a → IsSource I st.graph b → IsTarget I st.graph t → st.pname I t = st.pname I a → st.pname I a = st.pname I b → a = b)
include P hdn hw ho hs

theorem FlatParts.below {v t : Nat} (h : Below (declaredTo I order st) (connectedTo done) v t) :
    ((v, t) ∈ L) ∨ (IsTarget I st.graph t ∧ f1 t = v ∧ t ∉ (mergeAuto I order st).nodes ∧ v ∈ (mergeAuto I order st).nodes) := by
  rcases h with h | h
  · exact Or.inl ((P.done v t).1 ((mem_connectedTo hdn).1 h))
  · obtain ⟨h1, h2, h3⟩ := ((declaredTo_spec ho hw hs P.source1 P.target1 v).2 t).1 h
    refine Or.inr ⟨h1, h2, fun hc => h3 ?_, (P.image1.nodes v).2 ⟨t, h1.1, h2⟩⟩
    rw [← h2]
    exact (P.fixed hc).symm

theorem FlatParts.forest : Forest (declaredTo I order st) (connectedTo done) (rankOf (mergeAuto I order st) L) where
  rank := by
    intro v t h
    rcases P.below hdn hw ho hs h with h | ⟨_, _, h1, h2⟩
    · obtain ⟨a, _, b, _⟩ := P.ends _ h
      have := lastUse_lt P.noReuse h
      unfold rankOf
      rw [if_pos a, if_pos b]
      omega
    · unfold rankOf
      rw [if_neg h1, if_pos h2]
      omega
  parent := by
    intro v w t h1 h2
    rcases P.below hdn hw ho hs h1 with h1 | ⟨_, h1, h1', _⟩ <;> rcases P.below hdn hw ho hs h2 with h2 | ⟨_, h2, h2', _⟩
    · have a := (P.done _ _).2 h1
      have b := (P.done _ _).2 h2
      rw [a] at b
      exact Option.some.inj b
    · exact absurd (P.ends _ h1).2.2.1 h2'
    · exact absurd (P.ends _ h2).2.2.1 h1'
    · rw [← h1, ← h2]
  nodupD := fun v => (declaredTo_spec ho hw hs P.source1 P.target1 v).1
  nodupC := fun v => nodup_connectedTo hdn v
  disjoint := by
    intro v t h1 h2
    have h1 := (P.done v t).1 ((mem_connectedTo hdn).1 h1)
    obtain ⟨a, b, c⟩ := ((declaredTo_spec ho hw hs P.source1 P.target1 v).2 t).1 h2
    apply c
    rw [← b]
    exact (P.fixed (P.ends _ h1).2.2.1).symm

/-- from every variable one gets up to a variable that is no target -/
theorem FlatParts.top : ∀ (n : Nat) (y : Nat), L.length - lastUse L y ≤ n → y ∈ (mergeAuto I order st).nodes →
    f2 y ∈ (mergeAuto I order st).nodes ∧ (∀ e ∈ L, e.2 ≠ f2 y) ∧ Relation.ReflTransGen (Below (declaredTo I order st) (connectedTo done)) (f2 y) y := by
  intro n
  induction n with
  | zero =>
    intro y hn hy
    have : ∀ e ∈ L, e.2 ≠ y := by
      rintro ⟨s, t⟩ he rfl
      have h1 := lastUse_lt P.noReuse he
      have h2 := lastUse_le L s
      dsimp only at hn
      omega
    rw [P.fix2 y this]
    exact ⟨hy, this, .refl⟩
  | succ n ih =>
    intro y hn hy
    by_cases ht : ∀ e ∈ L, e.2 ≠ y
    · rw [P.fix2 y ht]
      exact ⟨hy, ht, .refl⟩
    · push Not at ht
      obtain ⟨⟨s, t⟩, he, rfl⟩ := ht
      have h1 := lastUse_lt P.noReuse he
      have h2 := lastUse_le L s
      dsimp only at hn ⊢
      obtain ⟨a, b, c⟩ := ih s (by omega) (P.ends _ he).1
      have hj := (P.joins _ he).1
      dsimp only at hj
      rw [hj]
      exact ⟨a, b, c.tail (Or.inl ((mem_connectedTo hdn).2 ((P.done s t).2 he)))⟩

theorem FlatParts.final {v : Nat} (hv : v ∈ g'.nodes) : v ∈ (mergeAuto I order st).nodes ∧ (∀ e ∈ L, e.2 ≠ v) ∧ f v = v := by
  obtain ⟨y, hy, rfl⟩ := (P.image2.nodes v).1 hv
  obtain ⟨a, b, _⟩ := P.top hdn hw ho hs _ y le_rfl hy
  refine ⟨a, b, ?_⟩
  rw [P.comp, P.fixed a, P.fix2 _ b]

theorem FlatParts.no_parent {v w : Nat} (hv : v ∈ g'.nodes) : ¬ Below (declaredTo I order st) (connectedTo done) w v := by
  intro h
  obtain ⟨a, b, _⟩ := P.final hdn hw ho hs hv
  rcases P.below hdn hw ho hs h with h | ⟨_, _, h, _⟩
  · exact b _ h rfl
  · exact h a

theorem FlatParts.below_same {v t : Nat} (h : Below (declaredTo I order st) (connectedTo done) v t) : f t = f v := by
  rcases P.below hdn hw ho hs h with h | ⟨_, rfl, _, h⟩
  · obtain ⟨a, _, b, _⟩ := P.ends _ h
    rw [P.comp, P.comp, P.fixed a, P.fixed b]
    exact (P.joins _ h).1
  · rw [P.comp, P.comp, P.idem]

/-- the variables below a variable that is kept are those that are merged into it -/
theorem FlatParts.class_of {v x : Nat} (hv : v ∈ g'.nodes) (hx : x ∈ st.graph.nodes) : Relation.ReflTransGen (Below (declaredTo I order st) (connectedTo done)) v x ↔ f x = v := by
  constructor
  · intro h
    induction h with
    | refl => exact (P.final hdn hw ho hs hv).2.2
    | @tail b c hb hbc ih =>
      rw [P.below_same hdn hw ho hs hbc]
      refine ih ?_
      have hM : ∀ z, z ∈ (mergeAuto I order st).nodes → z ∈ st.graph.nodes := by
        intro z hz
        obtain ⟨y, hy, rfl⟩ := (P.image1.nodes z).1 hz
        by_cases ht : IsTarget I st.graph y
        · by_cases hsr : ∃ s, IsSource I st.graph s ∧ st.pname I s = st.pname I y
          · obtain ⟨s, hsr, hn⟩ := hsr
            rw [P.source1 y s ht hsr hn]; exact hsr.1
          · push Not at hsr
            exact (P.target_image ht hsr).1.1
        · rw [P.fix1 y ht]; exact hy
      rcases P.below hdn hw ho hs hbc with h | ⟨_, _, _, h⟩
      · exact hM _ (P.ends _ h).1
      · exact hM _ h
  · rintro rfl
    rw [P.comp]
    have hM : f1 x ∈ (mergeAuto I order st).nodes := (P.image1.nodes _).2 ⟨x, hx, rfl⟩
    obtain ⟨_, _, c⟩ := P.top hdn hw ho hs _ (f1 x) le_rfl hM
    by_cases he : x = f1 x
    · rw [← he] at c ⊢; exact c
    · refine c.tail (Or.inr (((declaredTo_spec ho hw hs P.source1 P.target1 _).2 x).2 ⟨?_, rfl, he⟩))
      by_contra ht
      exact he (P.fix1 x ht).symm

end

/-! ### the blocks -/

/-- all rows but the first are explained by an earlier one -/
def Nests (R : Nat → Nat → MergeKind → Prop) (ls : List MLine) : Prop :=
  ∀ i l, ls[i]? = some l → 0 < i → ∃ j < i, ∃ p, ls[j]? = some p ∧ l.depth = p.depth + 1 ∧ (∀ k, j < k → k < i → ∀ l', ls[k]? = some l' → p.depth < l'.depth) ∧ R p.node l.node l.kind

theorem Nests.append {R : Nat → Nat → MergeKind → Prop} {h s : MLine} {pre tl : List MLine} (h1 : Nests R (h :: pre)) (h2 : ∀ l ∈ pre, h.depth < l.depth) (h3 : Nests R (s :: tl))
    (h4 : s.depth = h.depth + 1) (h5 : R h.node s.node s.kind) : Nests R ((h :: pre) ++ s :: tl) := by
  intro i l hl hi
  by_cases hc : i < (h :: pre).length
  · rw [List.getElem?_append_left hc] at hl
    obtain ⟨j, hj, p, a1, a2, a3, a4⟩ := h1 i l hl hi
    refine ⟨j, hj, p, by rw [List.getElem?_append_left (by omega)]; exact a1, a2, ?_, a4⟩
    intro k k1 k2 l' hl'
    rw [List.getElem?_append_left (by omega)] at hl'
    exact a3 k k1 k2 l' hl'
  · rw [List.getElem?_append_right (by omega)] at hl
    by_cases h0 : i - (h :: pre).length = 0
    · rw [h0] at hl
      cases hl
      refine ⟨0, hi, h, rfl, h4, ?_, h5⟩
      intro k k1 k2 l' hl'
      rw [List.getElem?_append_left (by omega)] at hl'
      obtain ⟨k, rfl⟩ : ∃ k', k = k' + 1 := ⟨k - 1, by omega⟩
      exact h2 l' (List.mem_of_getElem? hl')
    · obtain ⟨j, hj, p, a1, a2, a3, a4⟩ := h3 _ l hl (by omega)
      refine ⟨j + (h :: pre).length, by omega, p, ?_, a2, ?_, a4⟩
      · rw [List.getElem?_append_right (by omega)]
        rw [Nat.add_sub_cancel]
        exact a1
      · intro k k1 k2 l' hl'
        rw [List.getElem?_append_right (by omega)] at hl'
        exact a3 (k - (h :: pre).length) (by omega) (by omega) l' hl'

/-- the rows below one row -/
theorem Nests.flatten {R : Nat → Nat → MergeKind → Prop} {h : MLine} : ∀ (ls : List (List MLine)) (pre : List MLine), Nests R (h :: pre) → (∀ l ∈ pre, h.depth < l.depth) →
    (∀ l ∈ ls, ∃ s tl, l = s :: tl ∧ Nests R l ∧ s.depth = h.depth + 1 ∧ R h.node s.node s.kind ∧ ∀ x ∈ tl, s.depth < x.depth) →
    Nests R (h :: (pre ++ ls.flatten)) ∧ ∀ l ∈ pre ++ ls.flatten, h.depth < l.depth := by
  intro ls
  induction ls with
  | nil => intro pre h1 h2 _; simpa using ⟨h1, h2⟩
  | cons l ls ih =>
    intro pre h1 h2 h3
    obtain ⟨s, tl, rfl, a1, a2, a3, a4⟩ := h3 l (by simp)
    have := ih (pre ++ s :: tl) (by have := h1.append h2 a1 a2 a3; simpa using this) (by
      intro x hx
      rcases List.mem_append.1 hx with hx | hx
      · exact h2 x hx
      · rcases List.mem_cons.1 hx with rfl | hx
        · omega
        · have := a4 x hx; omega) (fun l hl => h3 l (by simp [hl]))
    simpa using this

theorem concatAll_some {α β : Type} {f : α → Option (List β)} : ∀ {as : List α} {l : List β}, concatAll f as = some l → ∃ ls, List.Forall₂ (fun a l => f a = some l) as ls ∧ l = ls.flatten := by
  intro as
  induction as with
  | nil => intro l h; cases h; exact ⟨[], .nil, rfl⟩
  | cons a as ih =>
    intro l h
    unfold concatAll at h
    cases ha : f a with
    | none => rw [ha] at h; cases h
    | some l0 =>
      rw [ha] at h
      dsimp only at h
      cases hc : concatAll f as with
      | none => rw [hc] at h; cases h
      | some l1 =>
        rw [hc] at h
        cases h
        obtain ⟨ls, h1, rfl⟩ := ih hc
        exact ⟨l0 :: ls, .cons ha h1, rfl⟩

theorem writeMerges_nests {I : NHeap} {uns : Nat → Name} {order : List Nat → List Nat} (ho : ∀ l x, x ∈ order l ↔ x ∈ l) {decl conn : Nat → List Nat} {R : Nat → Nat → MergeKind → Prop}
    (h1 : ∀ v t, t ∈ conn v → R v t .connection) (h2 : ∀ v t, t ∈ decl v → R v t .promotion) :
    ∀ (fuel depth : Nat) (kind : MergeKind) (v : Nat) (ls : List MLine), writeMerges I uns order decl conn fuel depth kind v = some ls →
      ∃ s tl, ls = s :: tl ∧ Nests R ls ∧ s.depth = depth ∧ s.kind = kind ∧ s.node = v ∧ ∀ x ∈ tl, s.depth < x.depth := by
  intro fuel
  induction fuel with
  | zero => intro _ _ _ _ h; cases h
  | succ fuel ih =>
    intro depth kind v ls h
    unfold writeMerges at h
    cases ha : concatAll (writeMerges I uns order decl conn fuel (depth + 1) .connection) (order (conn v)) with
    | none => rw [ha] at h; cases h
    | some l1 =>
    rw [ha] at h
    dsimp only at h
    cases hb : concatAll (writeMerges I uns order decl conn fuel (depth + 1) .promotion) (order (decl v)) with
    | none => rw [hb] at h; cases h
    | some l2 =>
    rw [hb] at h
    dsimp only at h
    cases h
    obtain ⟨L1, c1, rfl⟩ := concatAll_some ha
    obtain ⟨L2, c2, rfl⟩ := concatAll_some hb
    have key : ∀ l ∈ L1 ++ L2, ∃ s tl, l = s :: tl ∧ Nests R l ∧ s.depth = depth + 1 ∧ R v s.node s.kind ∧ ∀ x ∈ tl, s.depth < x.depth := by
      intro l hl
      rcases List.mem_append.1 hl with hl | hl
      · obtain ⟨t, ht, hw⟩ := forall₂_mem_right c1 hl
        obtain ⟨s, tl, a1, a2, a3, a4, a5, a6⟩ := ih _ _ _ _ hw
        exact ⟨s, tl, a1, a2, a3, by rw [a4, a5]; exact h1 v t ((ho _ _).1 ht), a6⟩
      · obtain ⟨t, ht, hw⟩ := forall₂_mem_right c2 hl
        obtain ⟨s, tl, a1, a2, a3, a4, a5, a6⟩ := ih _ _ _ _ hw
        exact ⟨s, tl, a1, a2, a3, by rw [a4, a5]; exact h2 v t ((ho _ _).1 ht), a6⟩
    have := Nests.flatten (R := R) (h := ⟨depth, kind, v, (I v).role, prependNamespace (uns v) (I v).name⟩) (L1 ++ L2) [] (by
      intro i l hl hi
      obtain ⟨i, rfl⟩ : ∃ i', i = i' + 1 := ⟨i - 1, by omega⟩
      simp at hl) (by simp) key
    rw [List.nil_append, List.flatten_append] at this
    exact ⟨_, _, rfl, this.1, rfl, rfl, rfl, this.2⟩

/-- what a block says -/
structure BlockFor (I : NHeap) (uns : Nat → Name) (decl conn : Nat → List Nat) (R : Nat → Nat → MergeKind → Prop) (v : Nat) (b : MBlock) : Prop where
  nested : Nested R b.lines
  warning : b.warning = true ↔ (I v).role = .declared
  nodup : b.nodes.Nodup
  nodes : ∀ x, x ∈ b.nodes ↔ Relation.ReflTransGen (Below decl conn) v x
  head : ∃ tl, b.lines = ⟨0, .source, v, (I v).role, prependNamespace (uns v) (I v).name⟩ :: tl
  lines : ∀ line ∈ b.lines, line.role = (I line.node).role ∧ line.full = prependNamespace (uns line.node) (I line.node).name

theorem writeBlocks_ok {I : NHeap} {uns : Nat → Name} {order : List Nat → List Nat} (ho : ∀ l, (order l).Perm l) {decl conn : Nat → List Nat} {rk : Nat → Nat} (h : Forest decl conn rk)
    {fuel : Nat} (hf : ∀ v, rk v < fuel) {R : Nat → Nat → MergeKind → Prop}
    (h1 : ∀ v t, t ∈ conn v → R v t .connection) (h2 : ∀ v t, t ∈ decl v → R v t .promotion) : ∀ vs : List Nat, ∃ bs, writeBlocks I uns order decl conn fuel vs = some bs ∧
      List.Forall₂ (BlockFor I uns decl conn R) (vs.filter fun v => ¬ ((I v).kind ≠ .var ∨ (conn v = [] ∧ decl v = []))) bs := by
  intro vs
  induction vs with
  | nil => exact ⟨[], rfl, .nil⟩
  | cons v vs ih =>
    obtain ⟨bs, b1, b2⟩ := ih
    unfold writeBlocks
    by_cases hc : (I v).kind ≠ .var ∨ (conn v = [] ∧ decl v = [])
    · rw [if_pos hc, List.filter_cons_of_neg (by rw [decide_eq_true_eq]; exact not_not.2 hc)]
      exact ⟨bs, b1, b2⟩
    · rw [if_neg hc, List.filter_cons_of_pos (by rw [decide_eq_true_eq]; exact hc)]
      obtain ⟨ls, a1, a2, a3, a4, a5⟩ := writeMerges_ok (I := I) (uns := uns) ho h fuel 0 .source v (hf v)
      rw [a1]
      dsimp only
      rw [b1]
      refine ⟨_, rfl, .cons ⟨?_, by simp, a2, a3, a4, a5⟩ b2⟩
      obtain ⟨s, tl, c1, c2, c3, c4, _, _⟩ := writeMerges_nests (fun l x => (ho l).mem_iff) h1 h2 _ _ _ _ _ a1
      intro i l hl
      by_cases hi : i = 0
      · subst hi
        dsimp only at hl
        rw [c1] at hl
        cases hl
        exact Or.inl ⟨rfl, c3, c4⟩
      · exact Or.inr (c2 i l hl (by omega))

end Csdl
