import Verif.Proofs.Foreign
import Verif.Props.Shared
/-!
# C90: variables used in models they do not belong to
-/
namespace Csdl

/-- C90, the part that holds: if a variable takes part in an operation of a model, whichever model the variable was created in, and its name means nothing in that model (no variable has it as promoted name or as full
name), the construction of the representation fails. -/
theorem C90_unknown_rejected_partial (H : Objs) (n fuel : Nat) (root : OModel) (hok : MixedOk H n root) (hn : 0 < n)
    (hf : ∀ path m, OAt H root path m → (m.outputs ++ m.declared).length + root.size * n ≤ fuel)
    (order : List Nat → List Nat) (ho : ∀ l x, x ∈ order l ↔ x ∈ l)
    (path : List Name) (m : OModel) (hm : OAt H root path m) (c : Nat) (hk : (H c).kind = .var) (hl : m.Linked H c) (hx : UserName H n (H c).name)
    (hno : ¬ KnownAt H root path (H c).name) :
    ∃ e, compileUses H n fuel order root = .error e := by
  cases hc : compileUses H n fuel order root with
  | error e => exact ⟨e, rfl⟩
  | ok rep =>
    exfalso
    apply hno
    obtain ⟨h1, h2⟩ := hok.unfold hn
    obtain ⟨k, hu⟩ := hm.use 0
    have hb := (hok.bounded path m hm).1
    have hcn := needs_below hb hl.1
    have h3 := known_names (c := k * n + c) h1 h2 (fuel := fuel) (by
      intro path' m' hm'
      obtain ⟨k', m'', hu', rfl⟩ := hm'.ofUnfold rfl hok.below
      have := hf path' m'' hu'.oat
      rw [OModel.unfold_outputs, OModel.unfold_declared]
      simpa using this) ho hc (hx.unfold hok hn root.size) (hu.unfold hok.below) ((linked_unfold hb k).2 hl)
      (by rw [uses_at H k hcn]; exact hk) (by rw [uses_at H k hcn])
    unfold KnownAt at h3 ⊢
    rw [hok.toModel] at h3
    exact h3

/-- Objects for the examples: `x = self.create_input('x')` in the main model; in the submodel `c`, the operation 1 has the argument `x`, the object of the main model, and computes `y`;
4 is a variable `x` that the submodel may declare. -/
def exForeign : Objs := fun i => match i with
  | 0 => { kind := .var, name := "x".toList, role := .input }
  | 1 => { kind := .op, name := "op".toList, deps := [0], outs := [2] }
  | 2 => { kind := .var, name := "y".toList, role := .output, deps := [1] }
  | 3 => { kind := .model, name := "c".toList }
  | 4 => { kind := .var, name := "x".toList, role := .declared }
  | _ => { kind := .var, name := "unused".toList }

def exForeignSub (declared : List Nat) : OModel := .mk [] [2] declared [] [] [] none .nil
def exForeignRoot (declared : List Nat) : OModel := .mk [0] [] [] [] [] [] none (.cons 3 (some []) (exForeignSub declared) .nil)

theorem exForeign_oat {d path m} (h : OAt exForeign (exForeignRoot d) path m) : (path = [] ∧ m = exForeignRoot d) ∨ (path = ["c".toList] ∧ m = exForeignSub d) := by
  cases h with
  | here => exact Or.inl ⟨rfl, rfl⟩
  | @down _ s path m' hs h =>
    simp only [exForeignRoot, OModel.subs, OSubs.toList, List.mem_cons, List.not_mem_nil, or_false] at hs
    subst hs
    cases h with
    | here => exact Or.inr ⟨rfl, rfl⟩
    | @down _ s path m' hs h => simp [exForeignSub, OModel.subs, OSubs.toList] at hs

theorem exForeign_bounded (l : List Nat) (h : ∀ c ∈ l, c < 5) : Bounded exForeign.heap 5 l := by
  refine ⟨h, ?_, ?_⟩ <;> decide

theorem namesOk_of {h : Heap} {subs inputs leaves : List Nat} (S : List Nat) (h1 : ∀ c ∈ leaves, c ∈ S) (h2 : ∀ c ∈ S, ∀ u ∈ (h c).deps, u ∈ S) (h3 : ∀ c ∈ S, ∀ u ∈ (h c).outs, u ∈ S)
    (h4 : ∀ c ∈ inputs, c ∈ S) (h5 : ∀ c ∈ S, (h c).kind ≠ .model) (h6 : ∀ c ∈ inputs, (h c).kind = .var) (h7 : ∀ a ∈ S, ∀ b ∈ S, (h a).name = (h b).name → (h a).kind = .op → a = b)
    (h8 : ∀ s ∈ subs, ∀ c ∈ S, (h s).name ≠ (h c).name) : NamesOk h subs inputs leaves := by
  have hS : ∀ c, Needed h leaves c ∨ c ∈ inputs → c ∈ S := fun c hc => hc.elim (fun h => Needed.sub h1 h2 h3 h) (h4 c)
  exact ⟨fun c hc => h5 c (hS c (Or.inl hc)), h6, fun a b ha hb => h7 a (hS a ha) b (hS b hb), fun s hs c hc => h8 s hs c (hS c hc)⟩

theorem exForeign_ok (d : List Nat) (hd : d = [] ∨ d = [4]) : MixedOk exForeign 5 (exForeignRoot d) := by
  refine ⟨?_, ?_, ?_⟩
  · intro path m h
    rcases exForeign_oat h with ⟨_, rfl⟩ | ⟨_, rfl⟩
    · refine ⟨exForeign_bounded _ (by simp [exForeignRoot, OModel.outputs, OModel.declared]), by simp [exForeignRoot, OModel.inputs], by simp [exForeignRoot, OModel.subs, OSubs.toList]⟩
    · refine ⟨exForeign_bounded _ ?_, by simp [exForeignSub, OModel.inputs], by simp [exForeignSub, OModel.subs, OSubs.toList]⟩
      rcases hd with rfl | rfl <;> decide
  · intro path m h
    rcases exForeign_oat h with ⟨_, rfl⟩ | ⟨_, rfl⟩
    · exact namesOk_of [0] (by simp [exForeignRoot, OModel.outputs, OModel.declared]) (by decide) (by decide) (by simp [exForeignRoot, OModel.inputs]) (by decide)
        (by simp [exForeignRoot, OModel.inputs, exForeign, Objs.heap]) (by decide) (by simp [exForeignRoot, OModel.subs, OSubs.toList, exForeign, Objs.heap])
    · rcases hd with rfl | rfl
      · exact namesOk_of [0, 1, 2] (by decide) (by decide) (by decide) (by decide) (by decide) (by decide) (by decide) (by decide)
      · exact namesOk_of [0, 1, 2, 4] (by decide) (by decide) (by decide) (by decide) (by decide) (by decide) (by decide) (by decide)
  · rcases hd with rfl | rfl <;> exact dotFree_of (by decide)

theorem exForeign_user : UserName exForeign 5 "x".toList := ⟨by decide, by decide, fun op h _ hc => by interval_cases op <;> simp [exForeign] at hc⟩

/-- the operation of the submodel has the argument `x` of the main model -/
theorem exForeign_linked (d : List Nat) : (exForeignSub d).Linked exForeign 0 := by
  have h2 : (exForeignSub d).Needs exForeign 2 := .leaf 2 (by simp [exForeignSub, OModel.outputs])
  have h1 : (exForeignSub d).Needs exForeign 1 := .dep 2 1 h2 (by decide)
  exact ⟨.dep 1 0 h1 (by decide), 1, h1, Or.inr (Or.inl (by decide))⟩

/-- A case of C90: the submodel `c` uses the input `x` of the main model, and has no variable `x`: the construction fails. -/
example (order : List Nat → List Nat) (ho : ∀ l x, x ∈ order l ↔ x ∈ l) : ∃ e, compileUses exForeign 5 20 order (exForeignRoot []) = .error e := by
  refine C90_unknown_rejected_partial exForeign 5 20 (exForeignRoot []) (exForeign_ok _ (Or.inl rfl)) (by decide) ?_ order ho ["c".toList] (exForeignSub []) (.down (s := ⟨3, some [], exForeignSub []⟩) (by simp [exForeignRoot, OModel.subs, OSubs.toList]) (.here _))
    0 rfl (exForeign_linked _) exForeign_user ?_
  · intro path m h
    rcases exForeign_oat h with ⟨_, rfl⟩ | ⟨_, rfl⟩ <;> decide
  · rintro ⟨p, hp⟩
    obtain ⟨r, hr, h⟩ := ok_of_check (x := resolve ((exForeignRoot []).toModel exForeign) none)
      (P := fun r => match findPromotedName (fullName ["c".toList] "x".toList) r.p2u (createReverseMap r.p2u) with | .ok _ => false | .error _ => true) (by decide)
    have := (find_ok (exForeign_ok _ (Or.inl rfl)).dotFree hr _ p).2 hp
    have h' : (match findPromotedName (fullName ["c".toList] "x".toList) r.p2u (createReverseMap r.p2u) with | .ok _ => false | .error _ => true) = true := h
    rw [show fullName ["c".toList] (exForeign 0).name = fullName ["c".toList] "x".toList from rfl] at this
    rw [this] at h'
    cases h'

/-- C90 does not hold in full: if the submodel has a variable of its own with the same name, the construction succeeds and the operation silently reads that variable (5 + 4), although its argument is the
object 0 of the main model, whose node (0) it does not read; the two are different variables, `x` and `c.x`. -/
theorem C90_foreign_captured : ∃ rep, MixedOk exForeign 5 (exForeignRoot [4]) ∧ compileUses exForeign 5 20 id (exForeignRoot [4]) = .ok rep ∧ (exForeign 1).deps = [0] ∧
    0 ∉ (exForeignSub [4]).vars ∧ rep.graph.preds (1 * 5 + 1) = [1 * 5 + 4] ∧ rep.maps.u2n.get? "x".toList = some 0 ∧ rep.maps.u2n.get? "c.x".toList = some (1 * 5 + 4) := by
  obtain ⟨rep, hrep, h⟩ := ok_of_check (x := compileUses exForeign 5 20 id (exForeignRoot [4]))
    (P := fun rep => decide (rep.graph.preds 6 = [9] ∧ rep.maps.u2n.get? "x".toList = some 0 ∧ rep.maps.u2n.get? "c.x".toList = some 9)) (by decide +kernel)
  obtain ⟨h1, h2, h3⟩ := of_decide_eq_true h
  exact ⟨rep, exForeign_ok _ (Or.inr rfl), hrep, rfl, by decide, h1, h2, h3⟩

end Csdl
