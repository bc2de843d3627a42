import Verif.Proofs.Reorder
/-
Proofs for C91: validity does not depend on the places of submodels and connections, except that connections may not form chains.
-/
namespace Csdl.Prog
open Csdl Csdl.Arith
variable {K F : Type}

theorem plainOf_append (L M : List (Nat × Stmt K F)) : plainOf (L ++ M) = plainOf L ++ plainOf M := List.filter_append ..

/-- the place of a statement other than a connection -/
theorem plain_split {L L' : List (Nat × Stmt K F)} (h : plainOf L = plainOf L') {A B : List (Nat × Stmt K F)} {y : Nat × Stmt K F} (hy : y.2.plain = true) (he : L = A ++ y :: B) :
    ∃ A' B', L' = A' ++ y :: B' ∧ plainOf A = plainOf A' := by
  subst he
  obtain ⟨n, s⟩ := y
  rw [plainOf_append, plainOf_cons, if_pos hy] at h
  obtain ⟨l1, l2, rfl, h1, h2⟩ := List.filter_eq_append_iff.1 h.symm
  obtain ⟨m1, m2, rfl, h3, h4, h5⟩ := List.filter_eq_cons_iff.1 h2
  refine ⟨l1 ++ m1, m2, by simp, ?_⟩
  rw [plainOf_append]
  have : plainOf m1 = [] := List.filter_eq_nil_iff.2 h3
  rw [this, List.append_nil]
  exact h1.symm

theorem namedIn_plain {L L' : List (Nat × Stmt K F)} (h : plainOf L = plainOf L') {x : Nat} {name : Name} : NamedIn L x name ↔ NamedIn L' x name := by
  unfold NamedIn
  rw [← filterMap_plain inputOf (fun _ _ _ => rfl) L, ← filterMap_plain declaredOf (fun _ _ _ => rfl) L, ← filterMap_plain outputOf (fun _ _ _ => rfl) L, h,
    filterMap_plain inputOf (fun _ _ _ => rfl), filterMap_plain declaredOf (fun _ _ _ => rfl), filterMap_plain outputOf (fun _ _ _ => rfl)]
  exact exists_congr fun y => and_congr_left fun _ => alias_plain_iff h

theorem sameNameIn_plain {L L' M M' : List (Nat × Stmt K F)} (h : plainOf L = plainOf L') (h' : plainOf M = plainOf M') {x x' : Nat} (hs : SameNameIn L x M x') : SameNameIn L' x M' x' := by
  unfold SameNameIn at hs ⊢
  simp only [namedIn_plain h, namedIn_plain h', alias_plain_iff h'] at hs
  exact hs

theorem stmtOk_plain [Zero K] {L L' : List (Nat × Stmt K F)} (h : plainOf L = plainOf L') {s : Stmt K F} (hs : StmtOk L s) : StmtOk L' s := by
  have hn : numVars L = numVars L' := by rw [← numVars_plain L, h, numVars_plain]
  have hsh : shapesOf L = shapesOf L' := by rw [← shapesOf_plain L, h, shapesOf_plain]
  have mem : ∀ y : Nat × Stmt K F, y.2.plain = true → y ∈ L → y ∈ L' := fun y hy hm => (mem_plainOf.1 (h ▸ mem_plainOf.2 ⟨hm, hy⟩)).1
  have mem' : ∀ y : Nat × Stmt K F, y.2.plain = true → y ∈ L' → y ∈ L := fun y hy hm => (mem_plainOf.1 (h.symm ▸ mem_plainOf.2 ⟨hm, hy⟩)).1
  have fresh : ∀ name : Name, (∀ y ∈ L, y.2.defines ≠ some name) → ∀ y ∈ L', y.2.defines ≠ some name := by
    intro name hf y hy
    by_cases hp : y.2.plain = true
    · exact hf y (mem' y hp hy)
    · obtain ⟨a, c, e⟩ := not_plain hp
      rw [e]; simp [Stmt.defines]
  cases s with
  | input name shape val => exact hs
  | declare name shape val => trivial
  | expr i => simp only [StmtOk] at hs ⊢; rw [← hn, ← hsh]; exact hs
  | call f args outs => simp only [StmtOk] at hs ⊢; rw [← hn]; exact hs
  | index x key => simp only [StmtOk] at hs ⊢; rw [← hn, ← hsh]; exact hs
  | output name shape val => exact ⟨hs.1, fresh name hs.2⟩
  | connect a c => exact hs
  | register name x =>
    obtain ⟨h1, h2, ⟨n, t, y, h3, h4, h5, h6, h7⟩, h8, h9⟩ := hs
    refine ⟨h1, hn ▸ h2, ⟨n, t, y, mem _ h4.plain h3, h4, h5, h6, (alias_plain_iff h).1 h7⟩, fun x' name' hx => ?_, fresh name h9⟩
    rw [← alias_plain_iff h]
    refine h8 x' name' ?_
    rw [← filterMap_plain outputOf (fun _ _ _ => rfl), h, filterMap_plain outputOf (fun _ _ _ => rfl)]
    exact hx
  | assign z key x =>
    obtain ⟨h1, h2, y, name, shape, val, idx, h3, h4, h5, h6, h7⟩ := hs
    refine ⟨hn ▸ h1, hn ▸ h2, y, name, shape, val, idx, mem _ rfl h3, (alias_plain_iff h).1 h4, hsh ▸ h5, h6, fun L1 n z' key' x' L2 he ha => ?_⟩
    obtain ⟨A, B, e, hA⟩ := plain_split h.symm (y := (n, .assign z' key' x')) rfl he
    obtain ⟨g1, g2⟩ := h7 A n z' key' x' B e ((alias_plain_iff h).2 ha)
    exact ⟨fun hs => g1 (sameNameIn_plain hA h.symm hs), g2⟩

theorem Reordered.methodOk [Zero K] {b b' : Body K F} (h : Reordered b b') (hm : MethodOk b) : MethodOk b' where
  stmts := by
    intro L y L' he
    by_cases hp : y.2.plain = true
    · obtain ⟨A, B, e, hA⟩ := plain_split (h.plain 0).symm hp he
      exact stmtOk_plain hA.symm (hm.stmts A y B e)
    · obtain ⟨a, c, e⟩ := not_plain hp
      obtain ⟨n, t⟩ := y
      dsimp only at e
      subst e
      have hc : b'.Connects a c := ⟨n, 0, by rw [he]; simp⟩
      obtain ⟨n', hn⟩ := (Body.connects_iff 0).1 ((h.connects a c).2 hc)
      obtain ⟨A, B, e⟩ := List.append_of_mem hn
      exact hm.stmts A _ B e
  assigned := by
    intro y name shape val hy
    obtain ⟨key, x, ha⟩ := hm.assigned y name shape val (h.symm.has rfl hy)
    exact ⟨key, x, h.assigned ha⟩
  subNames := h.subNames.nodup_iff.1 hm.subNames
  subAllowed := by
    rintro ⟨n, p, sub⟩ hs
    obtain ⟨sub', h1, _⟩ := h.symm.subs n p sub hs
    exact hm.subAllowed (n, p, sub') h1
  nonEmpty := by
    rw [← h.localInputs, ← h.localOutputs]
    rcases hm.nonEmpty with h1 | h1 | h1
    · exact Or.inl h1
    · exact Or.inr (Or.inl h1)
    · refine Or.inr (Or.inr fun e => h1 ?_)
      have := h.subNames
      rw [e] at this
      simpa using this

theorem Reordered.goodNames {b b' : Body K F} (h : Reordered b b') (hg : GoodNames b) : GoodNames b' where
  sources := by
    intro path c hc
    obtain ⟨c', h1, h2⟩ := h.symm.at hc
    rw [h2.localSources]
    exact hg.sources path c' h1
  declared := by
    intro path c hc
    obtain ⟨c', h1, h2⟩ := h.symm.at hc
    rw [h2.localSources, h2.localDeclared]
    exact hg.declared path c' h1
  notAuto := by
    intro path c hc
    obtain ⟨c', h1, h2⟩ := h.symm.at hc
    rw [h2.localSources, h2.localDeclared]
    exact hg.notAuto path c' h1
  subs := by
    rintro path c hc ⟨n, p, sub⟩ hs
    obtain ⟨c', h1, h2⟩ := h.symm.at hc
    rw [h2.localSources, h2.localDeclared]
    obtain ⟨sub', h3, _⟩ := h2.subs n p sub hs
    exact hg.subs path c' h1 (n, p, sub') h3

theorem Reordered.issuedSubs {b b' : Body K F} (h : Reordered b b') : (issuedPostSubs Local.connections b.toSubs).Perm (issuedPostSubs Local.connections b'.toSubs) := by
  induction h with
  | refl b => exact .refl _
  | trans _ _ h1 h2 => exact h1.trans h2
  | stmt s _ ih => exact ih
  | add i j n p hs _ h1 h2 =>
    simp only [Body.toSubs, issuedPostSubs, issuedPost]
    exact ((h1.append (hs.connections.map _)).map _).append h2
  | swapAdds i j n m p q sub sub' r =>
    simp only [Body.toSubs, issuedPostSubs]
    rw [← List.append_assoc, ← List.append_assoc]
    exact List.perm_append_comm.append_right _
  | addLater => exact .refl _
  | addEarlier => exact .refl _
  | connectLater => exact .refl _
  | connectEarlier => exact .refl _

theorem Reordered.issued {b b' : Body K F} (h : Reordered b b') : (issuedPost Local.connections b.toModel).Perm (issuedPost Local.connections b'.toModel) := by
  simp only [Body.toModel, issuedPost]
  exact h.issuedSubs.append (h.connections.map _)

theorem Reordered.feeds {b b' : Body K F} (h : Reordered b b') {q r : List Name × Nat} (hf : Feeds b q r) : Feeds b' q r := by
  rcases hf with ⟨c, n, s, h1, h2, h3, h4, h5, h6, h7, h8⟩ | ⟨c, name, shape, val, key, h1, h2, h3, h4⟩
  · obtain ⟨c', g1, g2⟩ := h.at h2
    exact Or.inl ⟨c', n, s, h1, g1, g2.has h4.plain h3, h4, h5, h6, g2.live h7, h8⟩
  · obtain ⟨c', g1, g2⟩ := h.at h2
    exact Or.inr ⟨c', name, shape, val, key, h1, g1, g2.has rfl h3, g2.assigned h4⟩

theorem Reordered.circular {b b' : Body K F} (h : Reordered b b') (hc : CircularProgram b) : CircularProgram b' := by
  obtain ⟨q, hq⟩ := hc
  refine ⟨q, Relation.TransGen.lift id ?_ _ _ hq⟩
  rintro a c ⟨a', h1, h2⟩
  exact ⟨a', h.sameAll h1, h.feeds h2⟩

theorem Reordered.connectionOk {b b' : Body K F} (h : Reordered b b') {s t : Name} (hc : ConnectionOk b s t) : ConnectionOk b' s t := by
  obtain ⟨p, q, h1, h2, ⟨path, w, h3⟩, ⟨path', x, h4⟩, h5, h6⟩ := hc
  refine ⟨p, q, h.denotes.1 h1, h.denotes.1 h2, ⟨path, w, h.promoted.1 h3⟩, ⟨path', x, h.hasName h4⟩, fun path c w hc hw hp => ?_, fun k path w k' path' w' g1 g2 => h6 k path w k' path' w' (h.promoted.2 g1) (h.promoted.2 g2)⟩
  obtain ⟨c', g1, g2⟩ := h.symm.at hc
  exact h5 path c' w g1 (g2.localOutputs ▸ hw) (h.promoted.2 hp)

theorem Reordered.valid [Zero K] {b b' : Body K F} (h : Reordered b b') (hno : NoChain b'.toModel) (hv : ValidProgram b) : ValidProgram b' where
  methods := by
    intro path c hc
    obtain ⟨c', h1, h2⟩ := h.symm.at hc
    exact h2.symm.methodOk (hv.methods path c' h1)
  names := h.goodNames hv.names
  oneSource := by
    intro path c hc p path1 v1 path2 v2 g1 g2
    obtain ⟨c', h1, h2⟩ := h.symm.at hc
    exact hv.oneSource path c' h1 p path1 v1 path2 v2 (h2.promoted.1 g1) (h2.promoted.1 g2)
  sizes := by
    intro path c hc p k1 path1 v1 k2 path2 v2 g1 g2
    obtain ⟨c', h1, h2⟩ := h.symm.at hc
    exact hv.sizes path c' h1 p k1 path1 v1 k2 path2 v2 (h2.promoted.1 g1) (h2.promoted.1 g2)
  promotes := by
    intro path c hc n q sub hs x hx
    obtain ⟨c', h1, h2⟩ := h.symm.at hc
    obtain ⟨sub', h3, h4⟩ := h2.subs _ _ _ hs
    obtain ⟨g1, path', k, v, g2⟩ := hv.promotes path c' h1 n q sub' h3 x hx
    exact ⟨g1, path', k, v, h4.promoted.2 g2⟩
  connections := by
    intro path c a d hc hm
    obtain ⟨c', h1, h2⟩ := h.symm.at hc
    exact h.connectionOk (hv.connections path c' a d h1 (h2.connections.mem_iff.1 hm))
  oneConnection := by
    have := hv.oneConnection
    rw [h.issued.pairwise_iff (fun {i j} hij q h1 h2 => hij q h2 h1)] at this
    exact this.imp fun hij q h1 h2 => hij q (h.denotes.2 h1) (h.denotes.2 h2)
  noChain := hno
  acyclic := fun hc => hv.acyclic (h.symm.circular hc)

theorem Reordered.assigns {b b' : Body K F} (h : Reordered b b') (ha : b.Assigns) : b'.Assigns := by
  obtain ⟨path, c, n, z, key, x, h1, h2⟩ := ha
  obtain ⟨c', h3, h4⟩ := h.at h1
  exact ⟨path, c', n, z, key, x, h3, h4.has rfl h2⟩

theorem Reordered.maxObjects {b b' : Body K F} (h : Reordered b b') : b.maxObjects = b'.maxObjects := by
  induction h with
  | refl b => rfl
  | trans _ _ h1 h2 => rw [h1, h2]
  | stmt s _ ih => simp only [Body.maxObjects, ih]
  | add i j n p _ _ h1 h2 => simp only [Body.maxObjects, h1, h2]
  | swapAdds => simp only [Body.maxObjects]; omega
  | addLater => simp only [Body.maxObjects]; omega
  | addEarlier => simp only [Body.maxObjects]; omega
  | connectLater => simp only [Body.maxObjects]; omega
  | connectEarlier => simp only [Body.maxObjects]; omega

end Csdl.Prog
