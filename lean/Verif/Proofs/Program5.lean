import Verif.Proofs.ProgramFrame
import Verif.Proofs.Compile2
/-
The whole hierarchy: which models there are and which objects they have.
-/
namespace Csdl.Prog
open Csdl Csdl.Arith
variable {K F : Type} [Field K] [DecidableEq K]

/-- one execution of a `define` method: the objects of others, the method, the state after -/
structure Slot (K F : Type) where
  before : Foreign K F
  body : Body K F
  st : St K F

/-- the model object of an execution -/
structure Matches (m : OModel) (s : Slot K F) : Prop where
  inputs : m.inputs = s.st.inputs
  outputs : m.outputs = s.st.outputs
  declared : m.declared = s.st.declared
  connections : m.connections = s.st.connections
  subs : m.subs.map OSub.id = s.st.subs.map (·.1)

/-- the object `i` was created by the method -/
def Slot.Has (s : Slot K F) (i : Nat) : Prop := s.before.Own i ∧ i < s.st.objs.length

/-- the invariant holds after the method -/
def Slot.Ok (objs : List (PObj K F)) (s : Slot K F) : Prop := Inv s.before (s.body.stmts 0) s.body.added s.st ∧ s.st.objs <+: objs

theorem prefix_objects {a b : List (PObj K F)} (h : a <+: b) {i : Nat} (hi : i < a.length) : objects b i = objects a i := by
  obtain ⟨t, rfl⟩ := h
  exact objects_append _ _ _ hi

theorem runOwn_inv {objs : List (PObj K F)} {b : Body K F} {st : St K F} {inl : Inl K F} (h : runOwn { objs := objs } b = .ok (st, inl)) :
    ∃ A, InlOk st.objs b inl A ∧ (∀ i, A i → objs.length ≤ i) ∧ objs <+: st.objs ∧ Inv ((Foreign.of objs).plus A st.objs) (b.stmts 0) b.added st := by
  obtain ⟨A, h1, h2, h3, h4⟩ := (Inv.start objs).runOwn b h
  refine ⟨A, h1, h2, ?_, by simpa using h4⟩
  rw [List.prefix_iff_getElem?]
  intro i hi
  rw [h4.base i objs[i]]
  unfold Foreign.plus
  rw [if_neg (fun hA => by have := h2 i hA; simp only at this; omega)]
  exact List.getElem?_eq_getElem hi

theorem has_plus {objs : List (PObj K F)} {b : Body K F} {st : St K F} {A : Nat → Prop} (hA : ∀ i, A i → i < st.objs.length) (i : Nat) :
    (Slot.mk ((Foreign.of objs).plus A st.objs) b st).Has i ↔ objs.length ≤ i ∧ ¬ A i ∧ i < st.objs.length := by
  unfold Slot.Has
  rw [Foreign.own_plus hA, Foreign.own_of, and_assoc]

theorem Inv.subLt {objs0 : Foreign K F} {L : List (Nat × Stmt K F)} {S : List (Name × Option (List Name))} {st : St K F} (h : Inv objs0 L S st) :
    ∀ i ∈ st.subs, i.1 < st.objs.length ∧ objs0.Own i.1 ∧ (objects st.objs i.1).name = i.2.1 ∧ (objects st.objs i.1).kind = .model := by
  intro i hi
  obtain ⟨x, hx, h1, h2, p, h3, h4, h5⟩ := forall₂_mem_left h.subs hi
  exact ⟨lt_of_some h3, h2, by rw [objects_eq h3, h5, h1], by rw [objects_eq h3, h4]⟩

theorem Inv.subsEq {objs0 : Foreign K F} {L : List (Nat × Stmt K F)} {S : List (Name × Option (List Name))} {st : St K F} (h : Inv objs0 L S st) : st.subs.map (·.2) = S := by
  have := h.subs
  generalize st.subs = l at this
  clear h
  induction this with
  | nil => rfl
  | cons h1 _ ih => simp [h1.1, ih]

theorem Inv.inputLt {objs0 : Foreign K F} {L : List (Nat × Stmt K F)} {S : List (Name × Option (List Name))} {st : St K F} (h : Inv objs0 L S st) :
    ∀ i ∈ st.inputs ++ st.outputs ++ st.declared, i < st.objs.length := by
  intro i hi
  simp only [List.mem_append] at hi
  rcases hi with (hi | hi) | hi
  · exact lt_of_some (h.inputRole i hi).2.choose_spec.1
  · exact lt_of_some (h.outputRole i hi).2.choose_spec.1
  · exact lt_of_some (h.declaredRole i hi).2.choose_spec.1

theorem map_of_forall₂ {α β γ : Type} {R : α → β → Prop} {f : α → γ} {g : β → γ} {l : List α} {l' : List β} (h : List.Forall₂ R l l') (hR : ∀ a ∈ l, ∀ b ∈ l', R a b → f a = g b) : l.map f = l'.map g := by
  induction h with
  | nil => rfl
  | cons h1 _ ih => simp [hR _ (by simp) _ (by simp) h1, ih fun a ha b hb => hR a (by simp [ha]) b (by simp [hb])]

/-- what a model defines, by names -/
theorem slot_locals {objs : List (PObj K F)} {s : Slot K F} (h : s.Ok objs) :
    ({ inputs := s.st.inputs.map (objects objs).varInfo, outputs := s.st.outputs.map (objects objs).varInfo, declared := s.st.declared.map (objects objs).varInfo,
       connections := s.st.connections } : Local) = s.body.locals := by
  obtain ⟨hi, hp⟩ := h
  have hinfo : ∀ i ∈ s.st.inputs ++ s.st.outputs ++ s.st.declared, (objects objs).varInfo i = infoOf s.st.objs i := by
    intro i h1
    unfold infoOf Objs.varInfo
    rw [prefix_objects hp (hi.inputLt i h1)]
  unfold Body.locals
  congr 1
  · exact map_of_forall₂ hi.inputs fun a ha b _ hab => by rw [hinfo a (by simp [ha]), hab.2.1]
  · refine map_of_forall₂ hi.outputs fun a ha b _ hab => ?_
    rw [hinfo a (by simp [ha])]
    have hs : s.body.shapes.getD b.1 [] = (objects s.st.objs a).shape := by
      unfold Body.shapes
      rw [← hi.shapes, List.getD_eq_getElem?_getD, List.getElem?_map, hab.1]
      rfl
    rw [hs, ← hab.2.1]
    rfl
  · exact map_of_forall₂ hi.declared fun a ha b _ hab => by rw [hinfo a (by simp [ha]), hab.2]
  · exact hi.connections

/-- the objects that were created between `objs` and `objs'`, and those in `A` -/
def Zone (objs objs' : List (PObj K F)) (A : Nat → Prop) (i : Nat) : Prop := (objs.length ≤ i ∧ i < objs'.length) ∨ A i

/-- the models below a method: `Ls` lists their executions; `A` are the objects of those that were defined in `with` blocks -/
structure Below (objs objs' : List (PObj K F)) (b : Body K F) (ks : OSubs) (Ls : List (List Name × Slot K F)) (A : Nat → Prop) : Prop where
  grow : objs <+: objs'
  slots : ∀ x ∈ Ls, x.2.Ok objs' ∧ ∀ i, x.2.Has i → Zone objs objs' A i
  order : Ls.Pairwise fun a c => ∀ i, a.2.Has i → ¬ c.2.Has i
  paths : (Ls.map (·.1)).Nodup
  toBody : ∀ x ∈ Ls, ∃ n p sub path, x.1 = n :: path ∧ (n, p, sub) ∈ b.subs ∧ BAt sub path x.2.body
  ofBody : ∀ n p sub, (n, p, sub) ∈ b.subs → ∀ path b', BAt sub path b' → ∃ s : Slot K F, (n :: path, s) ∈ Ls ∧ s.body = b'
  toObj : ∀ objsF, objs' <+: objsF → ∀ o ∈ ks.toList, ∀ path m, OAt (objects objsF) o.model path m → ∃ s : Slot K F, ((objects objsF o.id).name :: path, s) ∈ Ls ∧ Matches m s
  ofObj : ∀ objsF, objs' <+: objsF → ∀ x ∈ Ls, ∃ o ∈ ks.toList, ∃ path m, x.1 = (objects objsF o.id).name :: path ∧ OAt (objects objsF) o.model path m ∧ Matches m x.2
  names : ∀ objsF, objs' <+: objsF → ks.toSubs (objects objsF) = b.toSubs
  nonEmpty : ∀ x ∈ Ls, x.2.st.empty = false ∧ x.2.st.undefined = false
  all : ∀ i, Zone objs objs' A i → ∃ x ∈ Ls, x.2.Has i

theorem slot_toModel {objsF : List (PObj K F)} {s : Slot K F} (h : s.Ok objsF) (ks : OSubs) (hk : ks.toSubs (objects objsF) = s.body.toSubs) :
    (s.st.model ks).toModel (objects objsF) = .mk s.body.locals s.body.toSubs := by
  unfold St.model OModel.toModel
  rw [hk, ← slot_locals h]

theorem runSubs_ids : ∀ (b : Body K F) (objs0 objs : List (PObj K F)) (ids : List (Nat × Name × Option (List Name))) (inl : Inl K F) (A : Nat → Prop) (objs' : List (PObj K F)) (ks : OSubs),
    runSubs objs ids inl b = .ok (objs', ks) → InlOk objs0 b inl A → ids.map (·.2) = b.added → ks.toList.map OSub.id = ids.map (·.1)
  | .done, objs0, objs, ids, inl, A, objs', ks, h, hio, hn => by
    rw [runSubs] at h
    cases h
    cases ids with
    | nil => rfl
    | cons i ids => cases hn
  | .stmt s rest, objs0, objs, ids, inl, A, objs', ks, h, hio, hn => by
    rw [runSubs] at h
    cases hio with
    | stmt hio => exact runSubs_ids rest objs0 objs ids inl A objs' ks h hio hn
  | .add false n p sub rest, objs0, objs, ids, inl, A, objs', ks, h, hio, hn => by
    cases ids with
    | nil => cases hn
    | cons i ids =>
      cases hio with
      | add hio =>
      rw [runSubs] at h
      cases h1 : runOwn { objs := objs } sub with
      | error e => rw [h1] at h; cases h
      | ok q =>
        obtain ⟨st, ms⟩ := q
        rw [h1] at h
        simp only at h
        cases h2 : runSubs st.objs st.subs ms sub with
        | error e => rw [h2] at h; cases h
        | ok q =>
          rw [h2] at h
          simp only at h
          split at h
          · cases h
          · cases h3 : runSubs q.1 ids inl rest with
            | error e => rw [h3] at h; cases h
            | ok r =>
              rw [h3] at h
              cases h
              have hn' : ids.map (·.2) = rest.added := by
                have := congrArg List.tail hn
                simpa [Body.added, Body.subs] using this
              simp [OSubs.toList, runSubs_ids rest objs0 q.1 ids inl A r.1 r.2 h3 hio hn']
  | .add true n p sub rest, objs0, objs, ids, inl, A, objs', ks, h, hio, hn => by
    cases ids with
    | nil => cases hn
    | cons i ids =>
      cases hio with
      | @inline f _ _ _ _ st ms inl A1 A2 g1 g2 g3 g4 g5 g6 =>
      rw [runSubs] at h
      cases h2 : runSubs objs st.subs ms sub with
      | error e => rw [h2] at h; cases h
      | ok q =>
        rw [h2] at h
        simp only at h
        split at h
        · cases h
        · cases h3 : runSubs q.1 ids inl rest with
          | error e => rw [h3] at h; cases h
          | ok r =>
            rw [h3] at h
            cases h
            have hn' : ids.map (·.2) = rest.added := by
              have := congrArg List.tail hn
              simpa [Body.added, Body.subs] using this
            simp [OSubs.toList, runSubs_ids rest objs0 q.1 ids inl A2 r.1 r.2 h3 g3 hn']

/-- one more submodel -/
theorem Below.cons {objs o1 objs1 objs' : List (PObj K F)} {fl : Bool} {n : Name} {p : Option (List Name)} {rest : Body K F} {s : Slot K F} {i : Nat} {ks1 ks2 : OSubs} {L1 L2 : List (List Name × Slot K F)}
    {A A1 A2 : Nat → Prop} (b1 : Below o1 objs1 s.body ks1 L1 A1) (b2 : Below objs1 objs' rest ks2 L2 A2) (hgrow : objs <+: objs') (hok : s.Ok objs')
    (hiname : ∀ objsF, objs' <+: objsF → (objects objsF i).name = n) (hn : n ∉ rest.added.map (·.1)) (hids : ks1.toList.map OSub.id = s.st.subs.map (·.1)) (hemp : s.st.empty = false ∧ s.st.undefined = false)
    (hz : ∀ j, Zone objs objs' A j ↔ s.Has j ∨ Zone o1 objs1 A1 j ∨ Zone objs1 objs' A2 j) (d1 : ∀ j, s.Has j → ¬ Zone o1 objs1 A1 j) (d2 : ∀ j, s.Has j → ¬ Zone objs1 objs' A2 j)
    (d3 : ∀ j, Zone o1 objs1 A1 j → ¬ Zone objs1 objs' A2 j) :
    Below objs objs' (.add fl n p s.body rest) (.cons i p (s.st.model ks1) ks2) (([n], s) :: (L1.map fun x => (n :: x.1, x.2)) ++ L2) A := by
  have hL2 : ∀ x ∈ L2, ∀ path, x.1 ≠ n :: path := by
    intro x hx path he
    obtain ⟨n', p', sub', path', h5, h6, _⟩ := b2.toBody x hx
    rw [h5] at he
    injection he with he1 _
    subst he1
    exact hn (List.mem_map.2 ⟨(n', p'), List.mem_map.2 ⟨_, h6, rfl⟩, rfl⟩)
  refine ⟨hgrow, ?_, ?_, ?_, ?_, ?_, ?_, ?_, ?_, ?_, ?_⟩
  · intro x hx
    simp only [List.mem_append, List.mem_cons, List.mem_map] at hx
    rcases hx with (rfl | ⟨y, hy, rfl⟩) | hx
    · exact ⟨hok, fun j hj => (hz j).2 (Or.inl hj)⟩
    · exact ⟨⟨(b1.slots y hy).1.1, (b1.slots y hy).1.2.trans b2.grow⟩, fun j hj => (hz j).2 (Or.inr (Or.inl ((b1.slots y hy).2 j hj)))⟩
    · exact ⟨(b2.slots x hx).1, fun j hj => (hz j).2 (Or.inr (Or.inr ((b2.slots x hx).2 j hj)))⟩
  · rw [List.pairwise_append]
    refine ⟨?_, b2.order, ?_⟩
    · rw [List.pairwise_cons]
      refine ⟨?_, ?_⟩
      · intro x hx j hj hj'
        obtain ⟨y, hy, rfl⟩ := List.mem_map.1 hx
        exact d1 j hj ((b1.slots y hy).2 j hj')
      · rw [List.pairwise_map]
        exact b1.order
    · intro x hx y hy j hj hj'
      simp only [List.mem_cons, List.mem_map] at hx
      rcases hx with rfl | ⟨z, hz, rfl⟩
      · exact d2 j hj ((b2.slots y hy).2 j hj')
      · exact d3 j ((b1.slots z hz).2 j hj) ((b2.slots y hy).2 j hj')
  · rw [List.map_append, List.nodup_append]
    refine ⟨?_, b2.paths, ?_⟩
    · rw [List.map_cons, List.nodup_cons]
      refine ⟨?_, ?_⟩
      · intro hm
        simp only [List.map_map, List.mem_map, Function.comp] at hm
        obtain ⟨y, hy, he⟩ := hm
        obtain ⟨n', p', sub', path', h5, _⟩ := b1.toBody y hy
        rw [h5] at he
        simp at he
      · rw [List.map_map]
        have : (Prod.fst ∘ fun x : List Name × Slot K F => (n :: x.1, x.2)) = (fun l => n :: l) ∘ Prod.fst := rfl
        rw [this, ← List.map_map]
        exact b1.paths.map fun _ _ h => by simpa using h
    · intro a ha c hc hac
      obtain ⟨y, hy, rfl⟩ := List.mem_map.1 hc
      obtain ⟨x, hx, rfl⟩ := List.mem_map.1 ha
      simp only [List.mem_cons, List.mem_map] at hx
      rcases hx with rfl | ⟨z, hz, rfl⟩
      · exact hL2 y hy _ hac.symm
      · exact hL2 y hy _ hac.symm
  · intro x hx
    simp only [List.mem_append, List.mem_cons, List.mem_map] at hx
    rcases hx with (rfl | ⟨y, hy, rfl⟩) | hx
    · exact ⟨n, p, s.body, [], rfl, by simp [Body.subs], .here _⟩
    · obtain ⟨n', p', sub', path', h5, h6, h7⟩ := b1.toBody y hy
      exact ⟨n, p, s.body, n' :: path', by simp [h5], by simp [Body.subs], .down h6 h7⟩
    · obtain ⟨n', p', sub', path', h5, h6, h7⟩ := b2.toBody x hx
      exact ⟨n', p', sub', path', h5, by simp [Body.subs, h6], h7⟩
  · intro n' p' sub' hm path b' hb'
    simp only [Body.subs, List.mem_cons] at hm
    rcases hm with hm | hm
    · cases hm
      cases hb' with
      | here => exact ⟨s, by simp, rfl⟩
      | down h5 h6 =>
        obtain ⟨s, h7, h8⟩ := b1.ofBody _ _ _ h5 _ _ h6
        exact ⟨s, List.mem_append_left _ (List.mem_cons_of_mem _ (List.mem_map.2 ⟨_, h7, rfl⟩)), h8⟩
    · obtain ⟨s, h7, h8⟩ := b2.ofBody _ _ _ hm _ _ hb'
      exact ⟨s, List.mem_append_right _ h7, h8⟩
  · intro objsF hF o ho path m hm
    simp only [OSubs.toList, List.mem_cons] at ho
    rcases ho with rfl | ho
    · simp only [hiname objsF hF]
      cases hm with
      | here => exact ⟨s, by simp, rfl, rfl, rfl, rfl, hids⟩
      | down h5 h6 =>
        obtain ⟨s, h7, h8⟩ := b1.toObj objsF (b2.grow.trans hF) _ h5 _ _ h6
        exact ⟨s, List.mem_append_left _ (List.mem_cons_of_mem _ (List.mem_map.2 ⟨_, h7, rfl⟩)), h8⟩
    · obtain ⟨s, h7, h8⟩ := b2.toObj objsF hF o ho _ _ hm
      exact ⟨s, List.mem_append_right _ h7, h8⟩
  · intro objsF hF x hx
    simp only [List.mem_append, List.mem_cons, List.mem_map] at hx
    rcases hx with (rfl | ⟨y, hy, rfl⟩) | hx
    · exact ⟨⟨i, p, s.st.model ks1⟩, by simp [OSubs.toList], [], s.st.model ks1, by simp [hiname objsF hF], .here _, rfl, rfl, rfl, rfl, hids⟩
    · obtain ⟨o, ho, path, m, h5, h6, h7⟩ := b1.ofObj objsF (b2.grow.trans hF) y hy
      exact ⟨⟨i, p, s.st.model ks1⟩, by simp [OSubs.toList], _, m, by simp only [hiname objsF hF]; rw [h5], .down ho h6, h7⟩
    · obtain ⟨o, ho, path, m, h5, h6, h7⟩ := b2.ofObj objsF hF x hx
      exact ⟨o, by simp [OSubs.toList, ho], path, m, h5, h6, h7⟩
  · intro objsF hF
    unfold OSubs.toSubs Body.toSubs
    have hs : s.Ok objsF := ⟨hok.1, hok.2.trans hF⟩
    rw [hiname objsF hF, slot_toModel hs ks1 (b1.names objsF (b2.grow.trans hF)), b2.names objsF hF]
  · intro x hx
    simp only [List.mem_append, List.mem_cons, List.mem_map] at hx
    rcases hx with (rfl | ⟨y, hy, rfl⟩) | hx
    · exact hemp
    · exact b1.nonEmpty y hy
    · exact b2.nonEmpty x hx
  · intro j hj
    rcases (hz j).1 hj with h5 | h5 | h5
    · exact ⟨_, List.mem_append_left _ (List.mem_cons_self ..), h5⟩
    · obtain ⟨x, hx, h5⟩ := b1.all j h5
      exact ⟨_, List.mem_append_left _ (List.mem_cons_of_mem _ (List.mem_map.2 ⟨x, hx, rfl⟩)), h5⟩
    · obtain ⟨x, hx, h5⟩ := b2.all j h5
      exact ⟨x, List.mem_append_right _ hx, h5⟩

theorem runSubs_below : ∀ (b : Body K F) (objs0 objs : List (PObj K F)) (ids : List (Nat × Name × Option (List Name))) (inl : Inl K F) (A : Nat → Prop) (objs' : List (PObj K F)) (ks : OSubs),
    runSubs objs ids inl b = .ok (objs', ks) → InlOk objs0 b inl A → objs0 <+: objs → ids.map (·.2) = b.added → (b.added.map (·.1)).Nodup →
    (∀ i ∈ ids, i.1 < objs.length ∧ (objects objs i.1).name = i.2.1) → ∃ Ls, Below objs objs' b ks Ls A
  | .done, objs0, objs, ids, inl, A, objs', ks, h, hio, _, _, _, _ => by
    rw [runSubs] at h
    cases h
    cases hio
    exact ⟨[], List.prefix_rfl, by simp, List.Pairwise.nil, by simp, by simp, by simp [Body.subs], fun _ _ o ho => absurd ho (by simp [OSubs.toList]), by simp, fun _ _ => rfl, by simp,
      fun i h1 => h1.elim (fun h1 => absurd h1.1 (by omega)) False.elim⟩
  | .stmt s rest, objs0, objs, ids, inl, A, objs', ks, h, hio, hpre, hn, hd, hi => by
    rw [runSubs] at h
    cases hio with
    | stmt hio =>
    obtain ⟨Ls, hb⟩ := runSubs_below rest objs0 objs ids inl A objs' ks h hio hpre hn hd hi
    exact ⟨Ls, hb.grow, hb.slots, hb.order, hb.paths, hb.toBody, hb.ofBody, hb.toObj, hb.ofObj, hb.names, hb.nonEmpty, hb.all⟩
  | .add false n p sub rest, objs0, objs, ids, inl, A, objs', ks, h, hio, hpre, hn, hd, hi => by
    cases ids with
    | nil => cases hn
    | cons i ids =>
      cases hio with
      | add hio =>
      rw [runSubs] at h
      cases h1 : runOwn { objs := objs } sub with
      | error e => rw [h1] at h; cases h
      | ok q =>
        obtain ⟨st, ms⟩ := q
        rw [h1] at h
        simp only at h
        cases h2 : runSubs st.objs st.subs ms sub with
        | error e => rw [h2] at h; cases h
        | ok q =>
          obtain ⟨objs1, ks1⟩ := q
          rw [h2] at h
          simp only at h
          split at h
          · cases h
          · rename_i hemp
            cases h3 : runSubs objs1 ids inl rest with
            | error e => rw [h3] at h; cases h
            | ok r =>
              obtain ⟨objs2, ks2⟩ := r
              rw [h3] at h
              cases h
              obtain ⟨A1, g1, g2, g3, hinv⟩ := runOwn_inv h1
              have hn1 : i.2 = (n, p) := by
                have := congrArg List.head? hn
                simpa [Body.added, Body.subs] using this
              have hn2 : ids.map (·.2) = rest.added := by
                have := congrArg List.tail hn
                simpa [Body.added, Body.subs] using this
              have hd2 : n ∉ rest.added.map (·.1) ∧ (rest.added.map (·.1)).Nodup := by
                have : (n :: rest.added.map (·.1)).Nodup := by simpa [Body.added, Body.subs] using hd
                exact List.nodup_cons.1 this
              obtain ⟨L1, b1⟩ := runSubs_below sub st.objs st.objs st.subs ms A1 objs1 ks1 h2 g1 List.prefix_rfl hinv.subsEq hinv.subNames.1 fun j hj => ⟨(hinv.subLt j hj).1, (hinv.subLt j hj).2.2.1⟩
              have hg1 : objs <+: objs1 := g3.trans b1.grow
              have hi2 : ∀ j ∈ ids, j.1 < objs1.length ∧ (objects objs1 j.1).name = j.2.1 := by
                intro j hj
                have h4 := hi j (by simp [hj])
                exact ⟨Nat.lt_of_lt_of_le h4.1 hg1.length_le, by rw [prefix_objects hg1 h4.1]; exact h4.2⟩
              obtain ⟨L2, b2⟩ := runSubs_below rest objs0 objs1 ids inl A objs' ks2 h3 hio (hpre.trans hg1) hn2 hd2.2 hi2
              have hiname : ∀ objsF, objs' <+: objsF → (objects objsF i.1).name = n := by
                intro objsF hF
                have h4 := hi i (by simp)
                rw [prefix_objects ((hg1.trans b2.grow).trans hF) h4.1, h4.2, hn1]
              have hz := has_plus (objs := objs) (b := sub) g1.lt
              have hlt := hio.lt
              have hlt1 := g1.lt
              have l0 := hpre.length_le
              have l1 := g3.length_le
              have l2 := b1.grow.length_le
              have l3 := b2.grow.length_le
              have hp : i.2.2 = p := by rw [hn1]
              rw [hp]
              refine ⟨_, Below.cons (s := ⟨(Foreign.of objs).plus A1 st.objs, sub, st⟩) b1 b2 (hg1.trans b2.grow) ⟨hinv, b1.grow.trans b2.grow⟩ hiname hd2.1
                (runSubs_ids sub st.objs _ _ _ A1 _ _ h2 g1 hinv.subsEq) (by simpa using hemp) ?_ ?_ ?_ ?_⟩
              · intro j
                rw [hz]
                unfold Zone
                by_cases hA : A j
                · simp [hA]
                · by_cases hA1 : A1 j
                  · have := hlt1 j hA1
                    have := g2 j hA1
                    simp only [hA, hA1, or_false, or_true, true_or, iff_true]
                    omega
                  · simp only [hA, hA1, or_false, not_false_eq_true, true_and]
                    omega
              · intro j hj
                rw [hz] at hj
                rintro (h | h)
                · omega
                · exact hj.2.1 h
              · intro j hj
                rw [hz] at hj
                rintro (h | h)
                · omega
                · have := hlt j h
                  omega
              · intro j hj hj'
                have h1 : objs.length ≤ j ∧ j < objs1.length := by
                  rcases hj with h | h
                  · omega
                  · have := hlt1 j h
                    have := g2 j h
                    omega
                rcases hj' with h | h
                · omega
                · have := hlt j h
                  omega
  | .add true n p sub rest, objs0, objs, ids, inl, A, objs', ks, h, hio, hpre, hn, hd, hi => by
    cases ids with
    | nil => cases hn
    | cons i ids =>
      cases hio with
      | @inline f _ _ _ _ st ms inl A1 A2 hinv g2 g3 g4 g5 g6 =>
      rw [runSubs] at h
      cases h2 : runSubs objs st.subs ms sub with
      | error e => rw [h2] at h; cases h
      | ok q =>
        obtain ⟨objs1, ks1⟩ := q
        rw [h2] at h
        simp only at h
        split at h
        · cases h
        · rename_i hemp
          cases h3 : runSubs objs1 ids inl rest with
          | error e => rw [h3] at h; cases h
          | ok r =>
            obtain ⟨objs2, ks2⟩ := r
            rw [h3] at h
            cases h
            have hn1 : i.2 = (n, p) := by
              have := congrArg List.head? hn
              simpa [Body.added, Body.subs] using this
            have hn2 : ids.map (·.2) = rest.added := by
              have := congrArg List.tail hn
              simpa [Body.added, Body.subs] using this
            have hd2 : n ∉ rest.added.map (·.1) ∧ (rest.added.map (·.1)).Nodup := by
              have : (n :: rest.added.map (·.1)).Nodup := by simpa [Body.added, Body.subs] using hd
              exact List.nodup_cons.1 this
            obtain ⟨L1, b1⟩ := runSubs_below sub objs0 objs st.subs ms A1 objs1 ks1 h2 g2 hpre hinv.subsEq hinv.subNames.1 fun j hj => by
              obtain ⟨c1, _, c2, _⟩ := hinv.subLt j hj
              exact ⟨Nat.lt_of_lt_of_le c1 hpre.length_le, by rw [prefix_objects hpre c1]; exact c2⟩
            have hg1 : objs <+: objs1 := b1.grow
            have hi2 : ∀ j ∈ ids, j.1 < objs1.length ∧ (objects objs1 j.1).name = j.2.1 := by
              intro j hj
              have h4 := hi j (by simp [hj])
              exact ⟨Nat.lt_of_lt_of_le h4.1 hg1.length_le, by rw [prefix_objects hg1 h4.1]; exact h4.2⟩
            obtain ⟨L2, b2⟩ := runSubs_below rest objs0 objs1 ids inl A2 objs' ks2 h3 g3 (hpre.trans hg1) hn2 hd2.2 hi2
            have hiname : ∀ objsF, objs' <+: objsF → (objects objsF i.1).name = n := by
              intro objsF hF
              have h4 := hi i (by simp)
              rw [prefix_objects ((hg1.trans b2.grow).trans hF) h4.1, h4.2, hn1]
            have hlt1 := g2.lt
            have hlt2 := g3.lt
            have l0 := hpre.length_le
            have l2 := b1.grow.length_le
            have l3 := b2.grow.length_le
            have hp : i.2.2 = p := by rw [hn1]
            rw [hp]
            refine ⟨_, Below.cons (s := ⟨f, sub, { st with objs := objs0 }⟩) b1 b2 (hg1.trans b2.grow) ⟨hinv, (hpre.trans b1.grow).trans b2.grow⟩ hiname hd2.1
              (runSubs_ids sub objs0 _ _ _ A1 _ _ h2 g2 hinv.subsEq) (show st.empty = false ∧ st.undefined = false by simpa using hemp) ?_ ?_ ?_ ?_⟩
            · intro j
              unfold Zone Slot.Has
              simp only
              by_cases hA : A2 j
              · simp [hA]
              · by_cases hA1 : A1 j
                · simp [hA1]
                · simp only [hA, hA1, or_false]
                  constructor
                  · rintro (h | h)
                    · omega
                    · exact Or.inl h
                  · rintro (h | h)
                    · exact Or.inr h
                    · omega
            · rintro j hj (h | h)
              · have := hj.2
                simp only at this
                omega
              · exact g4 j h hj.1
            · rintro j hj (h | h)
              · have := hj.2
                simp only at this
                omega
              · exact g5 j h hj.1
            · rintro j (h | h) (h' | h')
              · omega
              · have := hlt2 j h'
                omega
              · have := hlt1 j h
                omega
              · exact g6 j h h'

/-- the models of a program: `Ls` lists the executions of their methods -/
structure Hier (objs : List (PObj K F)) (b : Body K F) (root : OModel) (Ls : List (List Name × Slot K F)) : Prop where
  slots : ∀ x ∈ Ls, x.2.Ok objs
  order : Ls.Pairwise fun a c => ∀ i, a.2.Has i → ¬ c.2.Has i
  paths : (Ls.map (·.1)).Nodup
  toBody : ∀ x ∈ Ls, BAt b x.1 x.2.body
  ofBody : ∀ path b', BAt b path b' → ∃ s : Slot K F, (path, s) ∈ Ls ∧ s.body = b'
  toObj : ∀ path m, OAt (objects objs) root path m → ∃ s : Slot K F, (path, s) ∈ Ls ∧ Matches m s
  ofObj : ∀ x ∈ Ls, ∃ m, OAt (objects objs) root x.1 m ∧ Matches m x.2
  names : root.toModel (objects objs) = b.toModel
  nonEmpty : ∀ x ∈ Ls, x.2.st.empty = false ∧ x.2.st.undefined = false

/-- the models of a program, and later: `all` are all objects of the session -/
theorem runFrom_hier {pre : List (PObj K F)} {b : Body K F} {objs all : List (PObj K F)} {root : OModel} (h : runFrom pre b = .ok (objs, root)) (hF : objs <+: all) :
    ∃ Ls, Hier all b root Ls ∧ pre <+: objs ∧ (∀ i, pre.length ≤ i → i < objs.length → ∃ x ∈ Ls, x.2.Has i) ∧ ∀ x ∈ Ls, x.2.st.objs <+: objs := by
  unfold runFrom at h
  cases h1 : runOwn { objs := pre } b with
  | error e => rw [h1] at h; cases h
  | ok q =>
    obtain ⟨st, inl⟩ := q
    rw [h1] at h
    simp only at h
    cases h2 : runSubs st.objs st.subs inl b with
    | error e => rw [h2] at h; cases h
    | ok q =>
      obtain ⟨objs1, ks1⟩ := q
      rw [h2] at h
      simp only at h
      split at h
      · cases h
      · rename_i hemp
        cases h
        obtain ⟨A, g1, g2, g3, hinv⟩ := runOwn_inv h1
        have hz := has_plus (objs := pre) (b := b) g1.lt
        obtain ⟨Ls, hb⟩ := runSubs_below b st.objs st.objs st.subs inl A objs ks1 h2 g1 List.prefix_rfl hinv.subsEq hinv.subNames.1 fun j hj => ⟨(hinv.subLt j hj).1, (hinv.subLt j hj).2.2.1⟩
        have hids := runSubs_ids b st.objs _ _ _ A _ _ h2 g1 hinv.subsEq
        refine ⟨([], ⟨(Foreign.of pre).plus A st.objs, b, st⟩) :: Ls, ⟨?_, ?_, ?_, ?_, ?_, ?_, ?_, ?_, ?_⟩, g3.trans hb.grow, ?_, ?_⟩
        · intro x hx
          rcases List.mem_cons.1 hx with rfl | hx
          · exact ⟨hinv, hb.grow.trans hF⟩
          · exact ⟨(hb.slots x hx).1.1, (hb.slots x hx).1.2.trans hF⟩
        · refine List.pairwise_cons.2 ⟨fun x hx j hj hj' => ?_, hb.order⟩
          have h3 := (hz j).1 hj
          rcases (hb.slots x hx).2 j hj' with h4 | h4
          · omega
          · exact h3.2.1 h4
        · rw [List.map_cons, List.nodup_cons]
          refine ⟨fun hm => ?_, hb.paths⟩
          obtain ⟨y, hy, he⟩ := List.mem_map.1 hm
          obtain ⟨n', p', sub', path', h5, _⟩ := hb.toBody y hy
          rw [h5] at he
          simp at he
        · intro x hx
          rcases List.mem_cons.1 hx with rfl | hx
          · exact .here _
          · obtain ⟨n', p', sub', path', h5, h6, h7⟩ := hb.toBody x hx
            rw [h5]
            exact .down h6 h7
        · intro path b' hb'
          cases hb' with
          | here => exact ⟨⟨(Foreign.of pre).plus A st.objs, b, st⟩, by simp, rfl⟩
          | down h5 h6 =>
            obtain ⟨s, h7, h8⟩ := hb.ofBody _ _ _ h5 _ _ h6
            exact ⟨s, List.mem_cons_of_mem _ h7, h8⟩
        · intro path m hm
          cases hm with
          | here => exact ⟨⟨(Foreign.of pre).plus A st.objs, b, st⟩, by simp, rfl, rfl, rfl, rfl, hids⟩
          | down h5 h6 =>
            obtain ⟨s, h7, h8⟩ := hb.toObj all hF _ h5 _ _ h6
            exact ⟨s, List.mem_cons_of_mem _ h7, h8⟩
        · intro x hx
          rcases List.mem_cons.1 hx with rfl | hx
          · exact ⟨_, .here _, rfl, rfl, rfl, rfl, hids⟩
          · obtain ⟨o, ho, path, m, h5, h6, h7⟩ := hb.ofObj all hF x hx
            exact ⟨m, h5 ▸ .down ho h6, h7⟩
        · have hs : (Slot.mk ((Foreign.of pre).plus A st.objs) b st).Ok all := ⟨hinv, hb.grow.trans hF⟩
          exact slot_toModel hs ks1 (hb.names all hF)
        · intro x hx
          rcases List.mem_cons.1 hx with rfl | hx
          · simpa using hemp
          · exact hb.nonEmpty x hx
        · intro j hj0 hj
          by_cases hc1 : Zone st.objs objs A j
          · obtain ⟨x, hx, h5⟩ := hb.all j hc1
            exact ⟨x, List.mem_cons_of_mem _ hx, h5⟩
          · unfold Zone at hc1
            refine ⟨_, List.mem_cons_self .., (hz j).2 ⟨hj0, fun h => hc1 (Or.inr h), ?_⟩⟩
            by_contra hc
            exact hc1 (Or.inl ⟨by omega, hj⟩)
        · intro x hx
          rcases List.mem_cons.1 hx with rfl | hx
          · exact hb.grow
          · exact (hb.slots x hx).1.2

end Csdl.Prog
