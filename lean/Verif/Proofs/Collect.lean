import Verif.Model.Collect
import Verif.Spec.Collect
import Verif.Proofs.Promotions3
import Mathlib.Data.List.Induction

namespace Csdl

/-! ### names -/

theorem full_promoted_coincide (m : Model) (hd : DotFree m) : ∀ {pr r}, resolve m pr = .ok r →
    ∀ {path k v p path' k' v'}, PromotedAs m path k v p → PromotedAs m path' k' v' (fullName path v.name) →
      p = fullName path v.name := by
  induction m using Model.ind with
  | h l subs ih =>
    intro pr r h path k v p path' k' v' h1 h2
    obtain ⟨d1, d2, d3⟩ := hd.loc
    have aux : ∀ (s : Subgraph), s ∈ subs.toList → ∀ {path1},
        PromotedAs (.mk l subs) path' k' v' (fullName (s.name :: path1) v.name) →
        ∃ path2, PromotedAs s.model path2 k' v' (fullName path1 v.name) ∧ ¬ IsPromoted s.promotes (fullName path1 v.name) := by
      intro s hs path1 h2
      have e0 : fullName (s.name :: path1) v.name = prependNamespace s.name (fullName path1 v.name) := rfl
      rw [e0] at h2
      generalize he : prependNamespace s.name (fullName path1 v.name) = q at h2
      cases h2 with
      | here hv' => exact absurd (he ▸ dot_mem_prepend (d2 _ hs).1) (d1 _ _ hv')
      | up hs2 hp2 hpr2 => exact absurd (he ▸ dot_mem_prepend (d2 _ hs).1) (promoted_dotfree hd h hs2 hpr2)
      | @stay _ _ path2 _ _ p2 t hs2 hp2 hpr2 =>
        obtain ⟨e1, e2⟩ := prepend_inj (d2 s hs) (d2 t hs2) he
        have e := sub_eq d3 hs hs2 e1
        subst e; subst e2
        exact ⟨path2, hp2, hpr2⟩
    cases h1 with
    | here hv => rfl
    | @up _ _ path1 _ _ _ s hs1 hp1 hpr1 =>
      obtain ⟨path2, hp2, hn⟩ := aux s hs1 h2
      obtain ⟨r', hr'⟩ := sub_ok h hs1
      have := ih s hs1 (hd.sub hs1) hr' hp1 hp2
      exact absurd (this ▸ hpr1) hn
    | @stay _ _ path1 _ _ p1 s hs1 hp1 hpr1 =>
      obtain ⟨path2, hp2, hn⟩ := aux s hs1 h2
      obtain ⟨r', hr'⟩ := sub_ok h hs1
      have := ih s hs1 (hd.sub hs1) hr' hp1 hp2
      rw [this]; rfl

theorem p2u_has {m : Model} {pr r} (h : resolve m pr = .ok r) (p : Name) :
    r.p2u.has p = true ↔ ∃ path k v, PromotedAs m path k v p := by
  obtain ⟨h1, h2, h3⟩ := p2u_facts m h
  rw [Dict.has_iff]
  constructor
  · intro hk
    obtain ⟨us, hus⟩ := Dict.mem_keys_get? hk
    cases us with
    | nil => exact absurd rfl (h2 p [] hus)
    | cons u us =>
      obtain ⟨path, k, v, hp, _⟩ := (h3 p u).1 ⟨_, hus, by simp⟩
      exact ⟨path, k, v, hp⟩
  · rintro ⟨path, k, v, hp⟩
    obtain ⟨us, hus, _⟩ := (h3 p _).2 ⟨path, k, v, hp, rfl⟩
    exact Dict.get?_mem_keys hus

theorem find_ok {m : Model} (hd : DotFree m) {pr r} (h : resolve m pr = .ok r) (key p : Name) :
    findPromotedName key r.p2u (createReverseMap r.p2u) = .ok p ↔ Denotes m key p := by
  have hrev := fun u p => reverse_iff (p2u_facts m h).1 (fun p p' u => p2u_functional hd h) u p
  unfold findPromotedName
  by_cases hk : r.p2u.has key = true
  · rw [if_pos hk]
    obtain ⟨path, k, v, hp⟩ := (p2u_has h key).1 hk
    constructor
    · intro e
      injection e with e
      subst e
      exact .promoted hp
    · intro hden
      cases hden with
      | promoted _ => rfl
      | full hp' => rw [full_promoted_coincide m hd h hp' hp]
  · rw [if_neg hk]
    have : ¬ ∃ path k v, PromotedAs m path k v key := fun hh => hk ((p2u_has h key).2 hh)
    constructor
    · intro e
      cases hu : (createReverseMap r.p2u).get? key with
      | none => rw [hu] at e; cases e
      | some q =>
        rw [hu] at e; injection e with e; subst e
        obtain ⟨path, k, v, hp, e⟩ := ((p2u_facts m h).2.2 q key).1 ((hrev key q).1 hu)
        rw [e]; exact .full hp
    · intro hden
      cases hden with
      | promoted hp => exact absurd ⟨_, _, _, hp⟩ this
      | full hp =>
        have := (hrev _ p).2 (((p2u_facts m h).2.2 p _).2 ⟨_, _, _, hp, rfl⟩)
        rw [this]

theorem find_error {m : Model} (hd : DotFree m) {pr r} (h : resolve m pr = .ok r) (key : Name) (e : CErr) :
    findPromotedName key r.p2u (createReverseMap r.p2u) = .error e ↔ e = .unknown ∧ ∀ p, ¬ Denotes m key p := by
  cases hf : findPromotedName key r.p2u (createReverseMap r.p2u) with
  | ok p =>
    simp only [reduceCtorEq, false_iff, not_and, not_forall, not_not]
    intro _
    exact ⟨p, (find_ok hd h key p).1 hf⟩
  | error e' =>
    have : e' = .unknown := by
      unfold findPromotedName at hf
      split at hf
      · cases hf
      · split at hf
        · cases hf
        · injection hf with hf; exact hf.symm
    subst this
    constructor
    · intro he
      injection he with he
      refine ⟨he.symm, fun p hp => ?_⟩
      rw [(find_ok hd h key p).2 hp] at hf; cases hf
    · rintro ⟨rfl, _⟩; rfl

theorem denotes_unique {m : Model} (hd : DotFree m) {pr r} (h : resolve m pr = .ok r) {key p q : Name}
    (h1 : Denotes m key p) (h2 : Denotes m key q) : p = q := by
  have e1 := (find_ok hd h key p).2 h1
  have e2 := (find_ok hd h key q).2 h2
  rw [e1] at e2; injection e2

/-! ### list helpers -/

theorem mapM_ok {α β ε : Type} {f : α → Except ε β} {l : List α} {r : List β} :
    l.mapM f = .ok r ↔ List.Forall₂ (fun a b => f a = .ok b) l r := by
  induction l generalizing r with
  | nil =>
    rw [List.mapM_nil]
    constructor
    · intro h; injection h with h; subst h; exact .nil
    · intro h; cases h; rfl
  | cons a l ih =>
    rw [List.mapM_cons]
    constructor
    · intro h
      rw [Except.bind_ok] at h
      obtain ⟨b, hb, h⟩ := h
      rw [Except.bind_ok] at h
      obtain ⟨bs, hbs, h⟩ := h
      injection h with h; subst h
      exact .cons hb (ih.1 hbs)
    · intro h
      cases h with
      | cons h1 h2 =>
        rw [h1, Except.bind_ok]
        exact ⟨_, rfl, by rw [ih.2 h2]; rfl⟩

theorem mapM_error {α β ε : Type} {f : α → Except ε β} {l : List α} {e : ε} (h : l.mapM f = .error e) :
    ∃ a ∈ l, f a = .error e := by
  induction l with
  | nil => rw [List.mapM_nil] at h; cases h
  | cons a l ih =>
    rw [List.mapM_cons, Except.bind_error] at h
    rcases h with h | ⟨b, hb, h⟩
    · exact ⟨a, by simp, h⟩
    · rw [Except.bind_error] at h
      rcases h with h | ⟨_, _, h⟩
      · obtain ⟨a', h1, h2⟩ := ih h; exact ⟨a', by simp [h1], h2⟩
      · cases h

theorem mapM_exists {α β ε : Type} {f : α → Except ε β} {l : List α} (h : ∀ a ∈ l, ∃ b, f a = .ok b) :
    ∃ r, l.mapM f = .ok r := by
  induction l with
  | nil => exact ⟨[], rfl⟩
  | cons a l ih =>
    obtain ⟨b, hb⟩ := h a (by simp)
    obtain ⟨r, hr⟩ := ih (fun a' h' => h a' (by simp [h']))
    refine ⟨b :: r, ?_⟩
    rw [List.mapM_cons, hb, Except.bind_ok]
    exact ⟨b, rfl, by rw [hr]; rfl⟩

section
variable {α : Type} [DecidableEq α]

theorem dictFromKeys_snoc (l : List α) (a : α) :
    dictFromKeys (l ++ [a]) = if a ∈ dictFromKeys l then dictFromKeys l else dictFromKeys l ++ [a] := by
  rw [dictFromKeys, List.foldl_append]; rfl

theorem mem_dictFromKeys (l : List α) : ∀ x, x ∈ dictFromKeys l ↔ x ∈ l := by
  induction l using List.reverseRecOn with
  | nil => simp [dictFromKeys]
  | append_singleton l a ih =>
    intro x
    rw [dictFromKeys_snoc]
    split
    · rename_i h
      rw [ih] at h ⊢
      simp only [List.mem_append, List.mem_singleton]
      constructor
      · exact Or.inl
      · rintro (h' | rfl)
        · exact h'
        · exact h
    · simp [ih]

theorem nodup_dictFromKeys (l : List α) : (dictFromKeys l).Nodup := by
  induction l using List.reverseRecOn with
  | nil => simp [dictFromKeys]
  | append_singleton l a ih =>
    rw [dictFromKeys_snoc]
    split
    · exact ih
    · rename_i h
      rw [List.nodup_append]
      refine ⟨ih, by simp, ?_⟩
      intro x hx y hy e
      simp at hy; subst hy; subst e
      exact h hx

theorem order_dictFromKeys [BEq α] [LawfulBEq α] (l : List α) {x y : α} (hx : x ∈ l) (hy : y ∈ l) :
    (dictFromKeys l).idxOf x < (dictFromKeys l).idxOf y ↔ l.idxOf x < l.idxOf y := by
  induction l using List.reverseRecOn with
  | nil => simp at hx
  | append_singleton l a ih =>
    rw [dictFromKeys_snoc]
    by_cases ha : a ∈ l
    · rw [if_pos ((mem_dictFromKeys l a).2 ha)]
      have h1 : x ∈ l := by
        rcases List.mem_append.1 hx with h | h
        · exact h
        · simp at h; subst h; exact ha
      have h2 : y ∈ l := by
        rcases List.mem_append.1 hy with h | h
        · exact h
        · simp at h; subst h; exact ha
      rw [ih h1 h2, List.idxOf_append_of_mem h1, List.idxOf_append_of_mem h2]
    · have ha' : a ∉ dictFromKeys l := fun h => ha ((mem_dictFromKeys l a).1 h)
      rw [if_neg ha']
      by_cases h1 : x ∈ l <;> by_cases h2 : y ∈ l
      · rw [List.idxOf_append_of_mem h1, List.idxOf_append_of_mem h2,
          List.idxOf_append_of_mem ((mem_dictFromKeys l x).2 h1), List.idxOf_append_of_mem ((mem_dictFromKeys l y).2 h2)]
        exact ih h1 h2
      · have h2' : y ∉ dictFromKeys l := fun h => h2 ((mem_dictFromKeys l y).1 h)
        have h1' := (mem_dictFromKeys l x).2 h1
        rw [List.idxOf_append_of_mem h1, List.idxOf_append_of_mem h1', List.idxOf_append_of_notMem h2,
          List.idxOf_append_of_notMem h2']
        have a1 := List.idxOf_lt_length_of_mem h1
        have a2 := List.idxOf_lt_length_of_mem h1'
        omega
      · have h1' : x ∉ dictFromKeys l := fun h => h1 ((mem_dictFromKeys l x).1 h)
        have h2' := (mem_dictFromKeys l y).2 h2
        rw [List.idxOf_append_of_mem h2, List.idxOf_append_of_mem h2', List.idxOf_append_of_notMem h1,
          List.idxOf_append_of_notMem h1']
        have a1 := List.idxOf_lt_length_of_mem h2
        have a2 := List.idxOf_lt_length_of_mem h2'
        omega
      · have e1 : x = a := by
          rcases List.mem_append.1 hx with h | h
          · exact absurd h h1
          · simpa using h
        have e2 : y = a := by
          rcases List.mem_append.1 hy with h | h
          · exact absurd h h2
          · simpa using h
        rw [e1, e2]; simp

end

/-! ### connections -/

mutual
theorem collect_eq : ∀ (m : Model) (ns : Name),
    collectConnections m ns = (issuedPost Local.connections m).map fun i => (i.2.1, i.2.2, descend ns i.1)
  | .mk l subs, ns => by
    rw [collectConnections, issuedPost, List.map_append, collectSubs_eq subs ns, List.map_map]
    rfl
theorem collectSubs_eq : ∀ (subs : Subs) (ns : Name),
    collectConnectionsSubs subs ns = (issuedPostSubs Local.connections subs).map fun i => (i.2.1, i.2.2, descend ns i.1)
  | .nil, _ => rfl
  | .cons n _ m rest, ns => by
    rw [collectConnectionsSubs, issuedPostSubs, List.map_append, collect_eq m, collectSubs_eq rest ns, List.map_map]
    rfl
end

mutual
theorem mem_issuedPost {α : Type} {sel : Local → List α} : ∀ (m : Model) (path : List Name) (x : α),
    (path, x) ∈ issuedPost sel m ↔ ∃ l subs, At m path (.mk l subs) ∧ x ∈ sel l
  | .mk l subs, path, x => by
    rw [issuedPost, List.mem_append, mem_issuedPostSubs subs path x]
    constructor
    · rintro (⟨s, hs, path', rfl, l', subs', hat, hx⟩ | h)
      · exact ⟨l', subs', .down hs hat, hx⟩
      · simp only [List.mem_map, Prod.mk.injEq] at h
        obtain ⟨y, hy, rfl, rfl⟩ := h
        exact ⟨l, subs, .here _, hy⟩
    · rintro ⟨l', subs', hat, hx⟩
      generalize hm : Model.mk l' subs' = m' at hat
      cases hat with
      | here => cases hm; exact Or.inr (by simp [hx])
      | @down _ _ path' _ s hs hat => subst hm; exact Or.inl ⟨s, hs, path', rfl, l', subs', hat, hx⟩
theorem mem_issuedPostSubs {α : Type} {sel : Local → List α} : ∀ (subs : Subs) (path : List Name) (x : α),
    (path, x) ∈ issuedPostSubs sel subs ↔ ∃ s ∈ subs.toList, ∃ path', path = s.name :: path' ∧
      ∃ l subs', At s.model path' (.mk l subs') ∧ x ∈ sel l
  | .nil, path, x => by simp [issuedPostSubs, Subs.toList]
  | .cons n p m rest, path, x => by
    rw [issuedPostSubs, List.mem_append, mem_issuedPostSubs rest path x]
    simp only [Subs.toList, List.mem_cons, List.mem_map, Prod.mk.injEq, Prod.exists]
    constructor
    · rintro (⟨q, y, hq, rfl, rfl⟩ | ⟨s, hs, h⟩)
      · obtain ⟨l, subs', h⟩ := (mem_issuedPost m q y).1 hq
        exact ⟨⟨n, p, m⟩, Or.inl rfl, q, rfl, l, subs', h⟩
      · exact ⟨s, Or.inr hs, h⟩
    · rintro ⟨s, rfl | hs, path', rfl, l, subs', h⟩
      · exact Or.inl ⟨path', x, (mem_issuedPost m path' x).2 ⟨l, subs', h⟩, rfl, rfl⟩
      · exact Or.inr ⟨s, hs, path', rfl, l, subs', h⟩
end

mutual
theorem mem_issuedPre {α : Type} {sel : Local → List α} : ∀ (m : Model) (path : List Name) (m' : Model) (x : α),
    (path, m', x) ∈ issuedPre sel m ↔ ∃ l subs, m' = .mk l subs ∧ At m path m' ∧ x ∈ sel l
  | .mk l subs, path, m', x => by
    rw [issuedPre, List.mem_append, mem_issuedPreSubs subs path m' x]
    constructor
    · rintro (h | ⟨s, hs, path', rfl, l', subs', rfl, hat, hx⟩)
      · simp only [List.mem_map, Prod.mk.injEq] at h
        obtain ⟨y, hy, rfl, rfl, rfl⟩ := h
        exact ⟨l, subs, rfl, .here _, hy⟩
      · exact ⟨l', subs', rfl, .down hs hat, hx⟩
    · rintro ⟨l', subs', rfl, hat, hx⟩
      generalize hm : Model.mk l' subs' = m' at hat
      cases hat with
      | here => cases hm; exact Or.inl (by simp [hx])
      | @down _ _ path' _ s hs hat => subst hm; exact Or.inr ⟨s, hs, path', rfl, l', subs', rfl, hat, hx⟩
theorem mem_issuedPreSubs {α : Type} {sel : Local → List α} : ∀ (subs : Subs) (path : List Name) (m' : Model) (x : α),
    (path, m', x) ∈ issuedPreSubs sel subs ↔ ∃ s ∈ subs.toList, ∃ path', path = s.name :: path' ∧
      ∃ l subs', m' = .mk l subs' ∧ At s.model path' m' ∧ x ∈ sel l
  | .nil, path, m', x => by simp [issuedPreSubs, Subs.toList]
  | .cons n p m rest, path, m', x => by
    rw [issuedPreSubs, List.mem_append, mem_issuedPreSubs rest path m' x]
    simp only [Subs.toList, List.mem_cons, List.mem_map, Prod.mk.injEq, Prod.exists]
    constructor
    · rintro (⟨q, m1, y, hq, rfl, rfl, rfl⟩ | ⟨s, hs, h⟩)
      · obtain ⟨l, subs', h⟩ := (mem_issuedPre m q m1 y).1 hq
        exact ⟨⟨n, p, m⟩, Or.inl rfl, q, rfl, l, subs', h⟩
      · exact ⟨s, Or.inr hs, h⟩
    · rintro ⟨s, rfl | hs, path', rfl, l, subs', h⟩
      · exact Or.inl ⟨path', m', x, (mem_issuedPre m path' m' x).2 ⟨l, subs', h⟩, rfl, rfl, rfl⟩
      · exact Or.inr ⟨s, hs, path', rfl, l, subs', h⟩
end

theorem at_good {m m' : Model} {path} (hd : DotFree m) (h : At m path m') : ∀ s ∈ path, s ≠ [] := by
  induction h with
  | here => simp
  | down hs _ ih =>
    intro t ht
    rcases List.mem_cons.1 ht with rfl | ht
    · exact (hd.loc.2.1 _ hs).1
    · exact ih (hd.sub hs) t ht

theorem descend_full {m m' : Model} {path} (hd : DotFree m) (h : At m path m') (x : Name) :
    prependNamespace (descend [] path) x = fullName path x := by
  rw [descend_prepend path (at_good hd h)]; simp [prependNamespace, fullName]

theorem forall₂_congr_mem {α β : Type} {R S : α → β → Prop} {l : List α} {l' : List β}
    (h : ∀ a ∈ l, ∀ b, R a b ↔ S a b) : List.Forall₂ R l l' ↔ List.Forall₂ S l l' := by
  induction l generalizing l' with
  | nil => constructor <;> (intro h; cases h; exact .nil)
  | cons a l ih =>
    have ih' := fun l' => ih (l' := l') (fun a h' => h a (by simp [h']))
    constructor
    · intro hf; cases hf with | cons h1 h2 => exact .cons ((h a (by simp) _).1 h1) ((ih' _).1 h2)
    · intro hf; cases hf with | cons h1 h2 => exact .cons ((h a (by simp) _).2 h1) ((ih' _).2 h2)

theorem repConnections_ok {m : Model} (hd : DotFree m) {r : Res} (h : resolve m none = .ok r)
    (cs : List (Name × Name)) :
    repConnections m r.p2u = .ok cs ↔
      ∃ L, List.Forall₂ (fun (i : List Name × Name × Name) (pq : Name × Name) =>
          Denotes m (fullName i.1 i.2.1) pq.1 ∧ Denotes m (fullName i.1 i.2.2) pq.2)
          (issuedPost Local.connections m) L ∧ cs = dictFromKeys L := by
  have hrel : ∀ L, List.Forall₂ (fun (i : List Name × Name × Name) (pq : Name × Name) =>
      (do let a ← findPromotedName (prependNamespace (descend [] i.1) i.2.1) r.p2u (createReverseMap r.p2u)
          let b ← findPromotedName (prependNamespace (descend [] i.1) i.2.2) r.p2u (createReverseMap r.p2u)
          pure (a, b)) = Except.ok (ε := CErr) pq) (issuedPost Local.connections m) L ↔
      List.Forall₂ (fun (i : List Name × Name × Name) (pq : Name × Name) =>
          Denotes m (fullName i.1 i.2.1) pq.1 ∧ Denotes m (fullName i.1 i.2.2) pq.2)
          (issuedPost Local.connections m) L := by
    intro L
    apply forall₂_congr_mem
    rintro ⟨path, a, b⟩ hi ⟨p, q⟩
    obtain ⟨l, subs, hat, _⟩ := (mem_issuedPost m path (a, b)).1 hi
    simp only [descend_full hd hat, Except.bind_ok, find_ok hd h, pure, Except.pure, Except.ok.injEq, Prod.mk.injEq]
    constructor
    · rintro ⟨_, h1, _, h2, rfl, rfl⟩; exact ⟨h1, h2⟩
    · rintro ⟨h1, h2⟩; exact ⟨p, h1, q, h2, rfl, rfl⟩
  simp only [Except.bind_ok] at hrel
  simp only [repConnections, Except.bind_ok, mapM_ok, collect_eq, List.forall₂_map_left_iff]
  constructor
  · rintro ⟨L, h1, h2⟩
    injection h2 with h2
    exact ⟨L, (hrel L).1 h1, h2.symm⟩
  · rintro ⟨L, h1, rfl⟩
    exact ⟨L, (hrel L).2 h1, rfl⟩

theorem find_total (key : Name) (p2u : Dict Name (List Name)) (u2p : Dict Name Name) :
    (∃ p, findPromotedName key p2u u2p = .ok p) ∨ findPromotedName key p2u u2p = .error .unknown := by
  unfold findPromotedName
  split
  · exact Or.inl ⟨_, rfl⟩
  · split
    · exact Or.inl ⟨_, rfl⟩
    · exact Or.inr rfl

theorem repConnections_error {m : Model} (hd : DotFree m) {r : Res} (h : resolve m none = .ok r) (e : CErr)
    (he : repConnections m r.p2u = .error e) : e = .unknown ∧
      ∃ path l subs a b, At m path (.mk l subs) ∧ (a, b) ∈ l.connections ∧
        ((∀ p, ¬ Denotes m (fullName path a) p) ∨ (∀ p, ¬ Denotes m (fullName path b) p)) := by
  simp only [repConnections, collect_eq] at he
  rw [Except.bind_error] at he
  rcases he with he | ⟨_, _, he⟩
  · obtain ⟨x, hx, he'⟩ := mapM_error he
    clear he
    simp only [List.mem_map] at hx
    obtain ⟨⟨path, a, b⟩, hi, rfl⟩ := hx
    obtain ⟨l, subs, hat, hab⟩ := (mem_issuedPost m path (a, b)).1 hi
    simp only [descend_full hd hat, Except.bind_error, find_error hd h] at he'
    rcases he' with ⟨rfl, he⟩ | ⟨_, _, ⟨rfl, he⟩ | ⟨_, _, he⟩⟩
    · exact ⟨rfl, path, l, subs, a, b, hat, hab, Or.inl he⟩
    · exact ⟨rfl, path, l, subs, a, b, hat, hab, Or.inr he⟩
    · cases he
  · cases he

/-! ### design variables and constraints -/

/-- one step of the collection, in terms of the specification list -/
def collectStep (p2u : Dict Name (List Name)) (ns : Name) (acc : Dict Name Nat) (i : List Name × Model × Name × Nat) :
    Except CErr (Dict Name Nat) := do
  let name ← lookupTwice p2u i.2.1 (descend ns i.1) i.2.2.1
  if acc.has name then .error .redundant else .ok (acc.set name i.2.2.2)

theorem collectOwn_eq (p2u : Dict Name (List Name)) (m : Model) (ns : Name) (l : List (Name × Nat)) (acc : Dict Name Nat) :
    collectOwn p2u m ns l acc = (l.map (fun x => (([] : List Name), m, x))).foldlM (collectStep p2u ns) acc := by
  induction l generalizing acc with
  | nil => rfl
  | cons kd l ih =>
    obtain ⟨k, d⟩ := kd
    rw [collectOwn, List.map_cons, List.foldlM_cons]
    simp only [collectStep, descend]
    cases hl : lookupTwice p2u m ns k with
    | error e => rfl
    | ok name =>
      simp only [bind, Except.bind]
      split
      · rfl
      · rw [ih]

theorem collectStep_shift (p2u : Dict Name (List Name)) (ns n : Name) (l : List (List Name × Model × Name × Nat))
    (acc : Dict Name Nat) :
    l.foldlM (collectStep p2u (prependNamespace ns n)) acc =
      (l.map (fun px => (n :: px.1, px.2))).foldlM (collectStep p2u ns) acc := by
  rw [List.foldlM_map]; rfl

mutual
theorem collectDecl_eq (sel : Local → Dict Name Nat) (p2u : Dict Name (List Name)) : ∀ (m : Model) (ns : Name) (acc : Dict Name Nat),
    collectDecl sel p2u m ns acc = (issuedPre sel m).foldlM (collectStep p2u ns) acc
  | .mk l subs, ns, acc => by
    rw [collectDecl, issuedPre, List.foldlM_append, collectOwn_eq]
    congr 1
    funext acc'
    exact collectDeclSubs_eq sel p2u subs ns acc'
theorem collectDeclSubs_eq (sel : Local → Dict Name Nat) (p2u : Dict Name (List Name)) : ∀ (subs : Subs) (ns : Name) (acc : Dict Name Nat),
    collectDeclSubs sel p2u subs ns acc = (issuedPreSubs sel subs).foldlM (collectStep p2u ns) acc
  | .nil, _, _ => rfl
  | .cons n _ m rest, ns, acc => by
    rw [collectDeclSubs, issuedPreSubs, List.foldlM_append, collectDecl_eq sel p2u m, collectStep_shift]
    congr 1
    funext acc'
    exact collectDeclSubs_eq sel p2u rest ns acc'
end

theorem foldlM_collect_ok (p2u : Dict Name (List Name)) (ns : Name) (l : List (List Name × Model × Name × Nat))
    (acc res : Dict Name Nat) :
    l.foldlM (collectStep p2u ns) acc = .ok res ↔
      ∃ L, List.Forall₂ (fun (i : List Name × Model × Name × Nat) (x : Name × Nat) =>
          lookupTwice p2u i.2.1 (descend ns i.1) i.2.2.1 = .ok x.1 ∧ i.2.2.2 = x.2) l L ∧
        (L.map Prod.fst).Nodup ∧ (∀ x ∈ L, x.1 ∉ acc.keys) ∧ res = acc ++ L := by
  induction l generalizing acc with
  | nil =>
    rw [List.foldlM_nil]
    constructor
    · intro h; injection h with h; subst h; exact ⟨[], .nil, by simp, by simp, by simp⟩
    · rintro ⟨L, h, _, _, rfl⟩; cases h; simp; rfl
  | cons i l ih =>
    rw [List.foldlM_cons, Except.bind_ok]
    constructor
    · rintro ⟨acc', h1, h2⟩
      rw [collectStep, Except.bind_ok] at h1
      obtain ⟨name, hn, h1⟩ := h1
      split at h1
      · cases h1
      · rename_i hh
        rw [Dict.has_iff] at hh
        injection h1 with h1
        rw [Dict.set_append_of_notin hh] at h1
        obtain ⟨L, f1, f2, f3, f4⟩ := (ih acc').1 h2
        subst h1
        refine ⟨(name, i.2.2.2) :: L, .cons ⟨hn, rfl⟩ f1, ?_, ?_, ?_⟩
        · rw [List.map_cons, List.nodup_cons]
          refine ⟨?_, f2⟩
          intro hm
          obtain ⟨x, hx, e⟩ := List.mem_map.1 hm
          apply f3 x hx
          rw [e]
          simp [Dict.keys]
        · intro x hx
          rcases List.mem_cons.1 hx with rfl | hx
          · exact hh
          · intro hk; apply f3 x hx; simp only [Dict.keys, List.map_append, List.mem_append]; exact Or.inl hk
        · rw [f4]; simp
    · rintro ⟨L, hf, h2, h3, rfl⟩
      cases hf with
      | @cons _ x _ L h1 f1 =>
        obtain ⟨h11, h12⟩ := h1
        rw [List.map_cons, List.nodup_cons] at h2
        have hx := h3 x (by simp)
        refine ⟨acc ++ [x], ?_, ?_⟩
        · rw [collectStep, Except.bind_ok]
          refine ⟨x.1, h11, ?_⟩
          rw [if_neg (by rw [Dict.has_iff]; exact hx), Dict.set_append_of_notin hx, h12]
        · rw [ih]
          refine ⟨L, f1, h2.2, ?_, by simp⟩
          intro y hy hk
          simp only [Dict.keys, List.map_append, List.mem_append, List.map_cons, List.map_nil, List.mem_singleton] at hk
          rcases hk with hk | hk
          · exact h3 y (by simp [hy]) hk
          · exact h2.1 (List.mem_map.2 ⟨y, hy, hk⟩)

theorem foldlM_collect_error (p2u : Dict Name (List Name)) (ns : Name) (l : List (List Name × Model × Name × Nat))
    (acc : Dict Name Nat) (e : CErr) (h : l.foldlM (collectStep p2u ns) acc = .error e) :
    (∃ i ∈ l, lookupTwice p2u i.2.1 (descend ns i.1) i.2.2.1 = .error e) ∨
    (e = .redundant ∧ ∃ pre i post name, l = pre ++ i :: post ∧ lookupTwice p2u i.2.1 (descend ns i.1) i.2.2.1 = .ok name ∧
      (name ∈ acc.keys ∨ ∃ j ∈ pre, lookupTwice p2u j.2.1 (descend ns j.1) j.2.2.1 = .ok name)) := by
  induction l generalizing acc with
  | nil => rw [List.foldlM_nil] at h; cases h
  | cons i l ih =>
    rw [List.foldlM_cons, Except.bind_error] at h
    rcases h with h | ⟨acc', h1, h⟩
    · rw [collectStep, Except.bind_error] at h
      rcases h with h | ⟨name, hn, h⟩
      · exact Or.inl ⟨i, by simp, h⟩
      · split at h
        · rename_i hh
          rw [Dict.has_iff] at hh
          injection h with h
          exact Or.inr ⟨h.symm, [], i, l, name, rfl, hn, Or.inl hh⟩
        · cases h
    · rw [collectStep, Except.bind_ok] at h1
      obtain ⟨name, hn, h1⟩ := h1
      split at h1
      · cases h1
      · injection h1 with h1
        rcases ih acc' h with ⟨j, hj, h⟩ | ⟨he, pre, j, post, nm, rfl, hj, hor⟩
        · exact Or.inl ⟨j, by simp [hj], h⟩
        · refine Or.inr ⟨he, i :: pre, j, post, nm, rfl, hj, ?_⟩
          rcases hor with hor | ⟨j', hj', hor⟩
          · rw [← h1, Dict.keys_set] at hor
            rcases hor with hor | rfl
            · exact Or.inl hor
            · exact Or.inr ⟨i, by simp, hn⟩
          · exact Or.inr ⟨j', by simp [hj'], hor⟩

theorem finish_p2u_indep {l cs a b pr pr' r} (h : finish l cs a b pr = .ok r) :
    ∃ r', finish l cs a b pr' = .ok r' ∧ r'.p2u = r.p2u := by
  simp only [finish_eq, Except.bind_ok] at h ⊢
  obtain ⟨_, x1, _, x2, _, x3, _, x4, p2u, x5, x6⟩ := h
  injection x6 with x6
  subst x6
  exact ⟨_, ⟨(), x1, (), x2, (), x3, (), x4, p2u, x5, rfl⟩, rfl⟩

theorem stored_ok {m : Model} {pr r} (h : resolve m pr = .ok r) : storedP2u m = r.p2u := by
  obtain ⟨l, subs⟩ := m
  simp only [resolve, Except.bind_ok] at h
  obtain ⟨⟨cs, a, b⟩, h1, h2⟩ := h
  obtain ⟨r', h3, h4⟩ := finish_p2u_indep (pr' := none) h2
  have : resolve (.mk l subs) none = .ok r' := by
    simp only [resolve, Except.bind_ok]
    exact ⟨(cs, a, b), h1, h3⟩
  rw [storedP2u, this]; exact h4

theorem lookupTwice_ok {m : Model} (hd : DotFree m) {r : Res} (h : resolve m none = .ok r) {path m'}
    (hat : At m path m') (k p : Name) :
    lookupTwice r.p2u m' (descend [] path) k = .ok p ↔ ∃ n, Denotes m' k n ∧ Denotes m (fullName path n) p := by
  obtain ⟨pr', r', h'⟩ := at_ok hat h
  rw [lookupTwice, Except.bind_ok, stored_ok h']
  simp only [find_ok (hd.at hat) h', descend_full hd hat, find_ok hd h]

theorem lookupTwice_error {m : Model} (hd : DotFree m) {r : Res} (h : resolve m none = .ok r) {path m'}
    (hat : At m path m') (k : Name) (e : CErr) (he : lookupTwice r.p2u m' (descend [] path) k = .error e) :
    e = .unknown ∧ ¬ ∃ n p, Denotes m' k n ∧ Denotes m (fullName path n) p := by
  have hne : ∀ n p, Denotes m' k n → ¬ Denotes m (fullName path n) p := by
    intro n p h1 h2
    rw [(lookupTwice_ok hd h hat k p).2 ⟨n, h1, h2⟩] at he
    cases he
  refine ⟨?_, fun ⟨n, p, h1, h2⟩ => hne n p h1 h2⟩
  rw [lookupTwice, Except.bind_error] at he
  rcases he with he | ⟨_, _, he⟩
  · rcases find_total k (storedP2u m') (createReverseMap (storedP2u m')) with ⟨p, hp⟩ | hp
    · rw [hp] at he; cases he
    · rw [hp] at he; injection he with he; exact he.symm
  · rename_i n hn
    rcases find_total (prependNamespace (descend [] path) n) r.p2u (createReverseMap r.p2u) with ⟨p, hp⟩ | hp
    · rw [hp] at he; cases he
    · rw [hp] at he; injection he with he; exact he.symm

/-! ### objective -/

def objStep (p2u : Dict Name (List Name)) (ns : Name) (acc : Option (Name × Nat)) (i : List Name × Model × Name × Nat) :
    Except CErr (Option (Name × Nat)) := do
  let name ← lookupTwice p2u i.2.1 (descend ns i.1) i.2.2.1
  if acc.isSome then .error .redundant else .ok (some (name, i.2.2.2))

def objSel (l : Local) : List (Name × Nat) := l.objective.toList

theorem objStep_shift (p2u : Dict Name (List Name)) (ns n : Name) (l : List (List Name × Model × Name × Nat)) (acc) :
    l.foldlM (objStep p2u (prependNamespace ns n)) acc =
      (l.map (fun px => (n :: px.1, px.2))).foldlM (objStep p2u ns) acc := by
  rw [List.foldlM_map]; rfl

mutual
theorem findObjective_eq (p2u : Dict Name (List Name)) : ∀ (m : Model) (ns : Name) (acc),
    findObjective p2u m ns acc = (issuedPre objSel m).foldlM (objStep p2u ns) acc
  | .mk l subs, ns, acc => by
    rw [findObjective, issuedPre, List.foldlM_append]
    have ih := fun a => findObjectiveSubs_eq p2u subs ns a
    cases ho : l.objective with
    | none =>
      simp only [objSel, ho, Option.toList, List.map_nil, List.foldlM_nil]
      exact ih acc
    | some kd =>
      obtain ⟨k, d⟩ := kd
      simp only [objSel, ho, Option.toList, List.map_cons, List.map_nil, List.foldlM_cons, List.foldlM_nil, objStep, descend]
      cases lookupTwice p2u (Model.mk l subs) ns k with
      | error e => rfl
      | ok name =>
        cases acc with
        | none => exact ih _
        | some _ => rfl
theorem findObjectiveSubs_eq (p2u : Dict Name (List Name)) : ∀ (subs : Subs) (ns : Name) (acc),
    findObjectiveSubs p2u subs ns acc = (issuedPreSubs objSel subs).foldlM (objStep p2u ns) acc
  | .nil, _, _ => rfl
  | .cons n _ m rest, ns, acc => by
    rw [findObjectiveSubs, issuedPreSubs, List.foldlM_append, findObjective_eq p2u m, objStep_shift]
    congr 1
    funext acc'
    exact findObjectiveSubs_eq p2u rest ns acc'
end

theorem foldlM_obj_ok (p2u : Dict Name (List Name)) (ns : Name) (l : List (List Name × Model × Name × Nat)) (res) :
    l.foldlM (objStep p2u ns) none = .ok res ↔
      (l = [] ∧ res = none) ∨ ∃ i p, l = [i] ∧ lookupTwice p2u i.2.1 (descend ns i.1) i.2.2.1 = .ok p ∧ res = some (p, i.2.2.2) := by
  cases l with
  | nil =>
    rw [List.foldlM_nil]
    constructor
    · intro h; injection h with h; exact Or.inl ⟨rfl, h.symm⟩
    · rintro (⟨_, rfl⟩ | ⟨i, p, h, _⟩)
      · rfl
      · cases h
  | cons i l =>
    rw [List.foldlM_cons, Except.bind_ok]
    constructor
    · rintro ⟨a, h1, h2⟩
      rw [objStep, Except.bind_ok] at h1
      obtain ⟨name, hn, h1⟩ := h1
      simp only [Option.isSome_none, Bool.false_eq_true, if_false] at h1
      injection h1 with h1; subst h1
      cases l with
      | nil =>
        rw [List.foldlM_nil] at h2; injection h2 with h2
        exact Or.inr ⟨i, name, rfl, hn, h2.symm⟩
      | cons j l =>
        rw [List.foldlM_cons, Except.bind_ok] at h2
        obtain ⟨_, h2, _⟩ := h2
        rw [objStep, Except.bind_ok] at h2
        obtain ⟨_, _, h2⟩ := h2
        simp at h2
    · rintro (⟨h, _⟩ | ⟨j, p, h, hp, rfl⟩)
      · cases h
      · cases h
        refine ⟨some (p, i.2.2.2), ?_, rfl⟩
        rw [objStep, hp]; rfl

end Csdl
