import Verif.Proofs.Report5
import Verif.Props.Reorder
/-!
# C92-C94: the files written with `analytics=True`
-/
namespace Csdl

section
variable (H : Objs) (n fuel : Nat) (root : OModel)

/-- **C92 (same result).** With `analytics=True` the representation is the same, if one is returned. -/
theorem C92_same_representation (order : List Nat → List Nat) (depth : Nat) (rep : Rep) (rpt : Report) (h : compileA H fuel order depth root = .ok (rep, rpt)) : compile H fuel order root = .ok rep :=
  compileA_sound h

/-- **C92 (hierarchy.txt).** If a model is accepted and its connections do not form chains (see C61), then it is accepted with `analytics=True` too, for any limit on recursion that is larger than the
number of connections by two, and `hierarchy.txt` describes the models and variables of the hierarchy.  Chains of connections are missing, see `C92_cycle_fails`. -/
theorem C92_hierarchy_partial (hok : ObjectsOk H n root) (hf : ∀ path m, OAt H root path m → (m.outputs ++ m.declared).length + n ≤ fuel) (order : List Nat → List Nat) (hop : ∀ l, (order l).Perm l)
    (hno : NoChain (root.toModel H)) (depth : Nat) (hdep : (issuedPost Local.connections (root.toModel H)).length + 2 ≤ depth) (rep : Rep) (hc : compile H fuel order root = .ok rep) :
    ∃ rpt, compileA H fuel order depth root = .ok (rep, rpt) ∧ Describes H root rpt.sections := by
  obtain ⟨rpt, g, kids, h1, hg, h2, _⟩ := report_ok hok hf hop hno hdep hc
  exact ⟨rpt, h1, sections_describe hok hf hg h2⟩

/-- **C93.** The promotion levels in `hierarchy.txt`: the row of a variable of the model reached through `path` whose promoted name starts with the first `q` names of `path` shows
`q` points and then counts down to 0, if `q` is not 0.  Missing: variables promoted to the main model (`q = 0`), see `C93_main_level_not_shown`. -/
theorem C93_levels_partial (hok : ObjectsOk H n root) (hf : ∀ path m, OAt H root path m → (m.outputs ++ m.declared).length + n ≤ fuel) (order : List Nat → List Nat) (hop : ∀ l, (order l).Perm l)
    (hno : NoChain (root.toModel H)) (depth : Nat) (hdep : (issuedPost Local.connections (root.toModel H)).length + 2 ≤ depth) (rep : Rep) (rpt : Report)
    (hc : compileA H fuel order depth root = .ok (rep, rpt)) :
    ∀ sec ∈ rpt.sections, ∃ path m, OAt H root path m ∧ sec.depth = path.length ∧ ∀ line ∈ sec.lines, line.full = fullName path line.name ∧
      ∃ q ≤ path.length, line.promoted = fullName (path.take q) line.name ∧ (q ≠ 0 → LevelsShown path.length q line.level) := by
  obtain ⟨rpt', g, kids, h1, hg, h2, _⟩ := report_ok hok hf hop hno hdep (compileA_sound hc)
  rw [hc] at h1
  cases h1
  intro sec hsec
  obtain ⟨e, he, h3⟩ := forall₂_mem_right h2 hsec
  have hat : ∃ ks', HierAt g kids e.1 e.2 ks' := by
    rcases List.mem_cons.1 he with rfl | he
    · exact ⟨kids, Or.inl ⟨rfl, rfl, rfl⟩⟩
    · obtain ⟨path, ks', h1, _, h2⟩ := kids.walk_at he
      rw [List.nil_append] at h1
      exact ⟨ks', Or.inr (h1 ▸ h2)⟩
  obtain ⟨ks', hat⟩ := hat
  obtain ⟨m, hm, _⟩ := hier_graphOf hok hf hg hat
  refine ⟨e.1, m, hm, h3.depth, ?_⟩
  intro line hl
  obtain ⟨v, _, q, hq, k, w, level, p1, p2, p3, rfl⟩ := forall₂_mem_right h3.rows hl
  refine ⟨rfl, q, hq, rfl, fun h0 => ?_⟩
  rwa [show max q 1 = q by omega] at p3

/-- **C94.** If a model is accepted and its connections do not form chains, then `promotions_connections.txt` shows which variables in `hierarchy.txt` are the same variable by promotions and
connections, and why.  Chains of connections are missing. -/
theorem C94_promotions_connections_partial (hok : ObjectsOk H n root) (hf : ∀ path m, OAt H root path m → (m.outputs ++ m.declared).length + n ≤ fuel) (order : List Nat → List Nat)
    (hop : ∀ l, (order l).Perm l) (hno : NoChain (root.toModel H)) (depth : Nat) (hdep : (issuedPost Local.connections (root.toModel H)).length + 2 ≤ depth) (rep : Rep)
    (hc : compile H fuel order root = .ok rep) :
    ∃ rpt, compileA H fuel order depth root = .ok (rep, rpt) ∧ BlocksShow H root rep rpt.sections rpt.blocks := by
  obtain ⟨rpt, g, kids, h1, _, _, h2⟩ := report_ok hok hf hop hno hdep hc
  exact ⟨rpt, h1, h2⟩

end

/-! ### where the connections form a cycle -/

theorem concatAll_mem {α β : Type} {f : α → Option (List β)} : ∀ {as : List α} {l : List β}, concatAll f as = some l → ∀ a ∈ as, ∃ l', f a = some l' := by
  intro as l h a ha
  obtain ⟨ls, h1, _⟩ := concatAll_some h
  obtain ⟨l', _, h2⟩ := forall₂_mem_left h1 ha
  exact ⟨l', h2⟩

theorem writeMerges_stops {I : NHeap} {uns : Nat → Name} {order : List Nat → List Nat} (ho : ∀ l x, x ∈ order l ↔ x ∈ l) {decl conn : Nat → List Nat} {S : Nat → Prop} (hS : ∀ x, S x → ∃ y, S y ∧ y ∈ conn x) :
    ∀ (fuel depth : Nat) (kind : MergeKind) (v : Nat), S v → writeMerges I uns order decl conn fuel depth kind v = none := by
  intro fuel
  induction fuel with
  | zero => intro _ _ _ _; rfl
  | succ fuel ih =>
    intro depth kind v hv
    obtain ⟨y, hy, hm⟩ := hS v hv
    unfold writeMerges
    cases ha : concatAll (writeMerges I uns order decl conn fuel (depth + 1) .connection) (order (conn v)) with
    | none => rfl
    | some l =>
      obtain ⟨l', hl'⟩ := concatAll_mem ha y ((ho _ _).2 hm)
      rw [ih _ _ y hy] at hl'
      cases hl'

theorem writeBlocks_stops {I : NHeap} {uns : Nat → Name} {order : List Nat → List Nat} (ho : ∀ l x, x ∈ order l ↔ x ∈ l) {decl conn : Nat → List Nat} {S : Nat → Prop} (hS : ∀ x, S x → ∃ y, S y ∧ y ∈ conn x)
    {fuel : Nat} {v : Nat} (hv : S v) (hk : (I v).kind = .var) : ∀ vs, v ∈ vs → writeBlocks I uns order decl conn fuel vs = none := by
  intro vs
  induction vs with
  | nil => intro h; cases h
  | cons w vs ih =>
    intro h
    unfold writeBlocks
    by_cases hw : w = v
    · subst hw
      obtain ⟨y, _, hm⟩ := hS w hv
      rw [if_neg (by rintro (h | ⟨h, _⟩); exacts [h hk, by rw [h] at hm; cases hm]), writeMerges_stops ho hS fuel 0 .source w hv]
    · have hr := ih ((List.mem_cons.1 h).resolve_left (Ne.symm hw))
      split_ifs
      · exact hr
      · cases writeMerges I uns order decl conn fuel 0 .source w with
        | none => rfl
        | some ls => dsimp only; rw [hr]; rfl

/-- **C92, the general reason.** If following the targets of connections from a variable of the representation never ends, no report is written, whatever the limit on recursion. -/
theorem C92_endless_connections_fail (H : Objs) (fuel : Nat) (root : OModel) (order : List Nat → List Nat) (ho : ∀ l x, x ∈ order l ↔ x ∈ l) (rep : Rep) (hc : compile H fuel order root = .ok rep)
    (S : Nat → Prop) (hS : ∀ x, S x → ∃ y, S y ∧ rep.done.get? y = some x) (v : Nat) (hv : S v) (hn : v ∈ rep.graph.nodes) (hk : (H v).kind = .var) (depth : Nat) (rpt : Report) :
    compileA H fuel order depth root ≠ .ok (rep, rpt) := by
  intro h
  unfold compileA at h
  obtain ⟨r, h1, h⟩ := exceptBind h
  obtain ⟨cs, h2, h⟩ := exceptBind h
  obtain ⟨dv, h3, h⟩ := exceptBind h
  obtain ⟨ob, h4, h⟩ := exceptBind h
  obtain ⟨cn, h5, h⟩ := exceptBind h
  obtain ⟨gk, h6, h⟩ := exceptBind h
  obtain ⟨f, h7, h⟩ := exceptBind h
  obtain ⟨l, h8, h⟩ := exceptBind h
  cases h
  dsimp only at hS hn
  cases hx : constructFlatA H.info order depth r.p2u (createReverseMap r.p2u) gk.1 gk.2 (collectConnections (root.toModel H) []) with
  | error e => rw [hx] at h7; cases e <;> cases h7
  | ok f' =>
    rw [hx] at h7
    cases h7
    unfold constructFlatA at hx
    split at hx
    · cases hx
    · split at hx
      · cases hx
      · rename_i r' hm
        split at hx
        · cases hx
        · rename_i bs hbs
          cases hx
          rw [writeBlocks_stops (S := S) ho (fun x hx => by
            obtain ⟨y, h1, h2⟩ := hS x hx
            exact ⟨y, h1, (mem_connectedTo (mergeConnections_keys hm)).2 h2⟩) hv hk _ hn] at hbs
          cases hbs

/-- `def define(self): x = create_input('x'); y = create_input('y'); r = 2 * x; register_output('r', r); connect('x', 'y'); connect('y', 'x')` -/
def exCycle : Prog.Body ℚ Unit :=
  .stmt (.input "x".toList [1] fun _ => 1) <| .stmt (.input "y".toList [1] fun _ => 2) <| .stmt (.expr (.mulc 0 (.num 2))) <| .stmt (.register "r".toList 2) <|
  .stmt (.connect "x".toList "y".toList) <| .stmt (.connect "y".toList "x".toList) .done

/-- **C92, refutation of the full statement.** A model whose connections form a cycle is accepted, but not with `analytics=True`, whatever the limit on recursion. -/
theorem C92_cycle_fails : ∃ objs root rep, Prog.runProgram exCycle = .ok (objs, root) ∧ compile (Prog.objects objs) 20 id root = .ok rep ∧
    (∀ depth rpt, compileA (Prog.objects objs) 20 id depth root ≠ .ok (rep, rpt)) ∧ compileA (Prog.objects objs) 20 id 1000 root = .error .recursion := by
  obtain ⟨⟨objs, root⟩, h1, h2⟩ := ok_of_check (x := Prog.runProgram exCycle) (P := fun q => okCheck (compile (Prog.objects q.1) 20 id q.2) fun rep => decide ((1 ∈ rep.graph.nodes ∧ (Prog.objects q.1 1).kind = .var ∧
      rep.done.get? 0 = some 1 ∧ rep.done.get? 1 = some 0)) && match compileA (Prog.objects q.1) 20 id 1000 q.2 with | .error .recursion => true | _ => false) (by decide +kernel)
  obtain ⟨rep, h3, h4⟩ := ok_of_check h2
  rw [Bool.and_eq_true] at h4
  obtain ⟨e1, e2, e3, e4⟩ := of_decide_eq_true h4.1
  refine ⟨objs, root, rep, h1, h3, fun depth rpt => ?_, ?_⟩
  · refine C92_endless_connections_fail _ _ _ id (fun _ _ => Iff.rfl) rep h3 (fun x => x = 0 ∨ x = 1) ?_ 1 (Or.inr rfl) e1 e2 depth rpt
    rintro x (rfl | rfl)
    · exact ⟨1, Or.inr rfl, e4⟩
    · exact ⟨0, Or.inl rfl, e3⟩
  · have := h4.2
    split at this
    · assumption
    · cases this

/-! ### an example -/

/-- what is written for the example of C70, of which the hypotheses of C92-C94 hold -/
def exObjReport : Report :=
  ⟨[⟨0, systemLevel, [⟨0, "a".toList, .input, [none], [1], "a".toList, "a".toList⟩, ⟨3, "y".toList, .output, [none], [1], "y".toList, "y".toList⟩,
        ⟨1, "w".toList, .declared, [none], [1], "w".toList, "w".toList⟩]⟩,
      ⟨1, "A".toList, [⟨7, "w".toList, .output, [none, some 0], [1], "w".toList, "A.w".toList⟩, ⟨5, "x".toList, .declared, [none, some 0], [1], "A.x".toList, "A.x".toList⟩]⟩],
    [⟨false, [⟨0, .source, 0, .input, "a".toList⟩, ⟨1, .connection, 5, .declared, "A.x".toList⟩]⟩,
      ⟨false, [⟨0, .source, 7, .output, "A.w".toList⟩, ⟨1, .promotion, 1, .declared, "w".toList⟩]⟩]⟩

theorem exObj_report : ∃ rep, compile exObj 10 id exObjRoot = .ok rep ∧ compileA exObj 10 id 1000 exObjRoot = .ok (rep, exObjReport) := by
  obtain ⟨⟨rep, rpt⟩, h1, h2⟩ := ok_of_check (x := compileA exObj 10 id 1000 exObjRoot) (P := fun q => decide (q.2 = exObjReport)) (by decide +kernel)
  have := of_decide_eq_true h2
  dsimp only at this
  subst this
  exact ⟨rep, compileA_sound h1, h1⟩

example : ∃ rep, ObjectsOk exObj 8 exObjRoot ∧ (∀ path m, OAt exObj exObjRoot path m → (m.outputs ++ m.declared).length + 8 ≤ 10) ∧ NoChain (exObjRoot.toModel exObj) ∧
    (issuedPost Local.connections (exObjRoot.toModel exObj)).length + 2 ≤ 1000 ∧ compile exObj 10 id exObjRoot = .ok rep ∧ Describes exObj exObjRoot exObjReport.sections ∧
    BlocksShow exObj exObjRoot rep exObjReport.sections exObjReport.blocks := by
  obtain ⟨rep, h1, h2⟩ := exObj_report
  have h3 : ∀ path m, OAt exObj exObjRoot path m → (m.outputs ++ m.declared).length + 8 ≤ 10 := by
    intro path m h
    rcases exObj_oat h with ⟨_, rfl⟩ | ⟨_, rfl⟩ <;> decide
  have h4 : NoChain (exObjRoot.toModel exObj) := by rw [exObj_model]; exact exEnd_noChain
  have h5 : (issuedPost Local.connections (exObjRoot.toModel exObj)).length + 2 ≤ 1000 := by decide
  obtain ⟨rpt, h6, h7⟩ := C92_hierarchy_partial _ _ _ _ exObj_ok h3 id (fun _ => .refl _) h4 1000 h5 rep h1
  obtain ⟨rpt', h8, h9⟩ := C94_promotions_connections_partial _ _ _ _ exObj_ok h3 id (fun _ => .refl _) h4 1000 h5 rep h1
  rw [h2] at h6 h8
  cases h6
  cases h8
  exact ⟨rep, exObj_ok, h3, h4, h5, h1, h7, h9⟩

/-- **C93, refutation of the full statement.** In the example, the variable `w` of the model `A` is promoted to the main model and `x` is not promoted, but their rows show the same
level, which is that of variables that are not promoted; a variable promoted from `A` to the main model should be shown as `10`. -/
theorem C93_main_level_not_shown : ∃ rep sec w x, compileA exObj 10 id 1000 exObjRoot = .ok (rep, exObjReport) ∧ sec ∈ exObjReport.sections ∧ w ∈ sec.lines ∧ x ∈ sec.lines ∧
    w.full = "A.w".toList ∧ w.promoted = "w".toList ∧ x.full = "A.x".toList ∧ x.promoted = "A.x".toList ∧ w.level = x.level ∧ LevelsShown 1 1 x.level ∧ ¬ LevelsShown 1 0 w.level := by
  obtain ⟨rep, _, h2⟩ := exObj_report
  refine ⟨rep, ⟨1, "A".toList, [⟨7, "w".toList, .output, [none, some 0], [1], "w".toList, "A.w".toList⟩, ⟨5, "x".toList, .declared, [none, some 0], [1], "A.x".toList, "A.x".toList⟩]⟩,
    ⟨7, "w".toList, .output, [none, some 0], [1], "w".toList, "A.w".toList⟩, ⟨5, "x".toList, .declared, [none, some 0], [1], "A.x".toList, "A.x".toList⟩, h2, ?_, ?_, ?_, rfl, rfl, rfl, rfl, rfl, ?_, ?_⟩
  · exact List.mem_cons_of_mem _ (List.mem_cons_self ..)
  · exact List.mem_cons_self ..
  · exact List.mem_cons_of_mem _ (List.mem_cons_self ..)
  · refine ⟨rfl, fun i hi => ?_⟩
    rcases i with _ | _ | i
    · rfl
    · rfl
    · omega
  · intro h
    have := h.2 0 (by omega)
    cases this

end Csdl
