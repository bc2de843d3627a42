import Verif.Spec.Implicit
import Verif.Proofs.Dict
import Mathlib.Data.List.Nodup
import Mathlib.Data.Finset.Card
import Mathlib.Data.Finset.Range
namespace Csdl

section
variable {h : Heap} {rname : Name} {n : Nat} {R : Nat → Prop}

/-- what a visit does -/
structure TPost (h : Heap) (rname : Name) (n : Nat) (R : Nat → Prop) (st st' : TState) : Prop where
  mono : ∀ w ∈ st.2, w ∈ st'.2
  len : st.2.length ≤ st'.2.length
  nodup : st'.2.Nodup
  bound : ∀ w ∈ st'.2, w < n
  closed : ∀ w ∈ st'.2, w ∉ st.2 → (h w).name ≠ rname → ∀ x, Reads h w x → x ∈ st'.2
  reach : ∀ w ∈ st'.2, w ∉ st.2 → R w
  terms : ∀ t, t ∈ st'.1 ↔ t ∈ st.1 ∨ (t ∈ st'.2 ∧ t ∉ st.2 ∧ (h t).name ≠ rname ∧ Terminal h t)

theorem TPost.refl {st : TState} (h1 : st.2.Nodup) (h2 : ∀ w ∈ st.2, w < n) : TPost h rname n R st st :=
  ⟨fun _ h => h, le_refl _, h1, h2, fun w h1 h2 => absurd h1 h2, fun w h1 h2 => absurd h1 h2, fun t => by
    constructor
    · exact Or.inl
    · rintro (h | ⟨h1, h2, _⟩)
      · exact h
      · exact absurd h1 h2⟩

theorem TPost.trans {a b c : TState} (h1 : TPost h rname n R a b) (h2 : TPost h rname n R b c) : TPost h rname n R a c := by
  refine ⟨fun w hw => h2.mono w (h1.mono w hw), h1.len.trans h2.len, h2.nodup, h2.bound, ?_, ?_, ?_⟩
  · intro w hw hn hne x hx
    by_cases hb : w ∈ b.2
    · exact h2.mono _ (h1.closed w hb hn hne x hx)
    · exact h2.closed w hw hb hne x hx
  · intro w hw hn
    by_cases hb : w ∈ b.2
    · exact h1.reach w hb hn
    · exact h2.reach w hw hb
  · intro t
    rw [h2.terms, h1.terms]
    constructor
    · rintro ((h | ⟨h3, h4, h5⟩) | ⟨h3, h4, h5⟩)
      · exact Or.inl h
      · exact Or.inr ⟨h2.mono _ h3, h4, h5⟩
      · exact Or.inr ⟨h3, fun h => h4 (h1.mono _ h), h5⟩
    · rintro (h | ⟨h3, h4, h5⟩)
      · exact Or.inl (Or.inl h)
      · by_cases hb : t ∈ b.2
        · exact Or.inl (Or.inr ⟨hb, h4, h5⟩)
        · exact Or.inr ⟨h3, hb, h5⟩

theorem foldOpt_post {α : Type} {f : TState → α → Option TState} {Q : α → TState → Prop} {fuel : Nat} (l : List α)
    (hstep : ∀ a ∈ l, ∀ st : TState, st.2.Nodup → (∀ w ∈ st.2, w < n) → n - st.2.length < fuel →
      ∃ st', f st a = some st' ∧ TPost h rname n R st st' ∧ Q a st')
    (hQ : ∀ a st st', Q a st → TPost h rname n R st st' → Q a st') :
    ∀ st : TState, st.2.Nodup → (∀ w ∈ st.2, w < n) → n - st.2.length < fuel →
      ∃ st', foldOpt f st l = some st' ∧ TPost h rname n R st st' ∧ ∀ a ∈ l, Q a st' := by
  induction l with
  | nil => intro st h1 h2 h3; exact ⟨st, rfl, TPost.refl h1 h2, by simp⟩
  | cons a l ih =>
    intro st h1 h2 h3
    obtain ⟨st1, e1, p1, q1⟩ := hstep a (by simp) st h1 h2 h3
    obtain ⟨st2, e2, p2, q2⟩ := ih (fun b hb => hstep b (by simp [hb])) st1 p1.nodup p1.bound (by have := p1.len; omega)
    refine ⟨st2, ?_, p1.trans p2, ?_⟩
    · unfold foldOpt; rw [e1]; exact e2
    · intro b hb
      rcases List.mem_cons.1 hb with rfl | hb
      · exact hQ _ _ _ q1 p2
      · exact q2 b hb

theorem isTerminal_iff {v : Nat} : isTerminal h v = true ↔ Terminal h v := by simp [isTerminal, Terminal]

theorem collectTerminals_post (hn : FiniteVars h n) (hR : ∀ v w, R v → Reads h v w → R w) : ∀ (fuel : Nat) (v : Nat) (st : TState), v < n → R v →
    st.2.Nodup → (∀ w ∈ st.2, w < n) → n - st.2.length < fuel →
    ∃ st', collectTerminals h rname fuel st v = some st' ∧ TPost h rname n R st st' ∧ ∀ w, Reads h v w → w ∈ st'.2 := by
  intro fuel
  induction fuel with
  | zero => intro v st _ _ _ _ h; omega
  | succ fuel ih =>
    intro v st hv hRv h1 h2 h3
    unfold collectTerminals
    suffices hstep : ∀ op ∈ (h v).deps, ∀ st : TState, st.2.Nodup → (∀ w ∈ st.2, w < n) → n - st.2.length < fuel + 1 →
        ∃ st', foldOpt (visitDep h rname (collectTerminals h rname fuel)) st (h op).deps = some st' ∧ TPost h rname n R st st' ∧ ∀ w ∈ (h op).deps, w ∈ st'.2 by
      obtain ⟨st', e, p, q⟩ := foldOpt_post (h := h) (rname := rname) (n := n) (R := R) (fuel := fuel + 1)
        (f := fun st op => foldOpt (visitDep h rname (collectTerminals h rname fuel)) st (h op).deps)
        (Q := fun op st' => ∀ w ∈ (h op).deps, w ∈ st'.2) (h v).deps hstep (fun a s s' hq hp w hw => hp.mono _ (hq w hw)) st h1 h2 h3
      exact ⟨st', e, p, fun w ⟨op, ho, hw⟩ => q op ho w hw⟩
    · intro op hop st h1 h2 h3
      refine foldOpt_post (h := h) (rname := rname) (n := n) (R := R) (fuel := fuel + 1) (Q := fun w (st' : TState) => w ∈ st'.2) (h op).deps ?_
        (fun a s s' hq hp => hp.mono _ hq) st h1 h2 h3
      intro w hw st h1 h2 h3
      have hread : Reads h v w := ⟨op, hop, hw⟩
      have hwn : w < n := hn v hv w hread
      unfold visitDep
      by_cases hmem : w ∈ st.2
      · rw [if_pos hmem]; exact ⟨st, rfl, TPost.refl h1 h2, hmem⟩
      · rw [if_neg hmem]
        have hnd : (w :: st.2).Nodup := List.nodup_cons.2 ⟨hmem, h1⟩
        have hbd : ∀ x ∈ w :: st.2, x < n := by
          intro x hx
          rcases List.mem_cons.1 hx with rfl | hx
          · exact hwn
          · exact h2 x hx
        by_cases hname : (h w).name ≠ rname
        · rw [if_pos hname]
          have hlen : (w :: st.2).length ≤ n := by
            have : (w :: st.2).toFinset ⊆ Finset.range n := by
              intro x hx
              rw [Finset.mem_range]
              exact hbd x (List.mem_toFinset.1 hx)
            have hc := Finset.card_le_card this
            rw [Finset.card_range, List.toFinset_card_of_nodup hnd] at hc
            exact hc
          obtain ⟨st', e, p, q⟩ := ih w (if isTerminal h w then w :: st.1 else st.1, w :: st.2) hwn (hR v w hRv hread) hnd hbd (by
            simp only [List.length_cons] at hlen ⊢; omega)
          refine ⟨st', e, ?_, p.mono w (by simp)⟩
          refine ⟨fun x hx => p.mono x (by simp [hx]), ?_, p.nodup, p.bound, ?_, ?_, ?_⟩
          · have := p.len; simp only [List.length_cons] at this; omega
          · intro x hx hxn hxne y hy
            by_cases hxw : x = w
            · subst hxw; exact q y hy
            · exact p.closed x hx (by simp [hxw, hxn]) hxne y hy
          · intro x hx hxn
            by_cases hxw : x = w
            · subst hxw; exact hR v x hRv hread
            · exact p.reach x hx (by simp [hxw, hxn])
          · intro t
            rw [p.terms]
            dsimp only
            constructor
            · rintro (ht | ⟨ht1, ht2, ht3⟩)
              · by_cases hter : isTerminal h w = true
                · rw [if_pos hter] at ht
                  rcases List.mem_cons.1 ht with rfl | ht
                  · exact Or.inr ⟨p.mono _ (by simp), hmem, hname, isTerminal_iff.1 hter⟩
                  · exact Or.inl ht
                · rw [if_neg hter] at ht; exact Or.inl ht
              · exact Or.inr ⟨ht1, fun hh => ht2 (List.mem_cons_of_mem _ hh), ht3⟩
            · rintro (ht | ⟨ht1, ht2, ht3, ht4⟩)
              · left
                split
                · exact List.mem_cons_of_mem _ ht
                · exact ht
              · by_cases htw : t = w
                · subst htw
                  left
                  rw [if_pos (isTerminal_iff.2 ht4)]
                  simp
                · exact Or.inr ⟨ht1, by simp [htw, ht2], ht3, ht4⟩
        · rw [if_neg hname]
          refine ⟨_, rfl, ⟨fun x hx => by simp [hx], by simp, hnd, hbd, ?_, ?_, ?_⟩, by simp⟩
          · intro x hx hxn hxne
            dsimp only at hx
            rcases List.mem_cons.1 hx with rfl | hx
            · exact absurd hxne hname
            · exact absurd hx hxn
          · intro x hx hxn
            dsimp only at hx
            rcases List.mem_cons.1 hx with rfl | hx
            · exact hR v x hRv hread
            · exact absurd hx hxn
          · intro t
            dsimp only
            constructor
            · exact Or.inl
            · rintro (ht | ⟨ht1, ht2, ht3, _⟩)
              · exact ht
              · rcases List.mem_cons.1 ht1 with rfl | ht1
                · exact absurd ht3 hname
                · exact absurd ht1 ht2

/-- Total correctness of `collect_terminals`. -/
theorem terminals_exact (hn : FiniteVars h n) {r : Nat} (hr : r < n) (ho : OwnName h r) {fuel : Nat} (hf : n < fuel) :
    ∃ T V, collectTerminals h (h r).name fuel ([], []) r = some (T, V) ∧ ∀ t, t ∈ T ↔ DependsVar h r t ∧ Terminal h t := by
  obtain ⟨⟨T, V⟩, e, p, q⟩ := collectTerminals_post (rname := (h r).name) (R := fun v => Relation.ReflTransGen (Reads h) r v) hn
    (fun v w hv hw => hv.tail hw) fuel r ([], []) hr .refl (by simp) (by simp) (by simpa using hf)
  refine ⟨T, V, e, fun t => ?_⟩
  have hV : ∀ w, DependsVar h r w → w ∈ V := by
    intro w hw
    unfold DependsVar at hw
    induction hw with
    | single hw => exact q _ hw
    | @tail a b hab hb ih =>
      by_cases hname : (h a).name = (h r).name
      · rw [ho a hab hname] at hb; exact q _ hb
      · exact p.closed a ih (by simp) hname b hb
  rw [p.terms]
  constructor
  · rintro (ht | ⟨ht1, _, ht2, ht3⟩)
    · simp at ht
    · have htr : t ≠ r := fun he => ht2 (by rw [he])
      refine ⟨?_, ht3⟩
      rcases Relation.reflTransGen_iff_eq_or_transGen.1 (p.reach t ht1 (by simp)) with he | he
      · exact absurd he htr
      · exact he
  · rintro ⟨h1, h3⟩
    refine Or.inr ⟨hV t h1, by simp, fun he => ?_, h3⟩
    have := ho t h1 he
    subst this
    obtain ⟨w, ⟨op, hop, _⟩, _⟩ := Relation.TransGen.head'_iff.1 h1
    rw [h3.2] at hop
    cases hop

end

end Csdl
