import Verif.Proofs.Implicit
import Verif.Props.Connect
/-!
# C34-C36: implicit operations
-/
namespace Csdl

theorem exceptBind {ε α β : Type} {x : Except ε α} {f : α → Except ε β} {b : β} (h : (x >>= f) = .ok b) : ∃ a, x = .ok a ∧ f a = .ok b := by
  cases x with
  | ok a => exact ⟨a, rfl, h⟩
  | error e => cases h

section
variable {M : IModel}

theorem nameMap_some {h : Heap} {l : List Nat} {x : Name} {v : Nat} (hv : (nameMap h l).get? x = some v) : v ∈ l ∧ (h v).name = x := by
  rcases Dict.mem_update (d := []) hv with h1 | h1
  · obtain ⟨y, hy, he⟩ := List.mem_map.1 h1
    cases he
    exact ⟨hy, rfl⟩
  · simp [Dict.get?] at h1

theorem nameMap_has {h : Heap} {l : List Nat} {x : Name} (hx : (nameMap h l).has x = true) : ∃ v, (nameMap h l).get? x = some v := by
  rw [Dict.has_iff] at hx
  exact Dict.mem_keys_get? hx

/-- Everything `genMaps` checked and computed. -/
theorem genMaps_ok {fuel : Nat} {args : List (Name × Shape)} {states residuals expose : List Name} {maps : IMaps}
    (h : genMaps M fuel args states residuals expose = .ok maps) :
    M.inputs = [] ∧ (args.map (·.1)).Nodup ∧ states.Nodup ∧ residuals.Nodup ∧ states.length = residuals.length ∧ checkArgs M args = .ok () ∧
    checkNames (nameMap M.h M.declared) .state states = .ok () ∧ checkNames (nameMap M.h M.outputs) .residual residuals = .ok () ∧
    checkNames (nameMap M.h M.outputs) .expose expose = .ok () ∧ pairUp M (states.zip residuals) ([], []) = .ok (maps.outRes, maps.resOut) ∧
    inMap M fuel (args.map (·.1) ++ states) true maps.outRes = .ok maps.outIn ∧ maps.exposed = M.outputs.filter (fun x => (M.h x).name ∈ expose) := by
  unfold genMaps at h
  by_cases h1 : M.inputs ≠ []
  · rw [if_pos h1] at h; cases h
  rw [if_neg h1] at h
  by_cases h2 : ¬ (args.map (·.1)).Nodup
  · rw [if_pos h2] at h; cases h
  rw [if_neg h2] at h
  by_cases h3 : ¬ states.Nodup
  · rw [if_pos h3] at h; cases h
  rw [if_neg h3] at h
  by_cases h4 : ¬ residuals.Nodup
  · rw [if_pos h4] at h; cases h
  rw [if_neg h4] at h
  by_cases h5 : states.length ≠ residuals.length
  · rw [if_pos h5] at h; cases h
  rw [if_neg h5] at h
  obtain ⟨_, a1, h⟩ := exceptBind h
  obtain ⟨_, a2, h⟩ := exceptBind h
  obtain ⟨_, a3, h⟩ := exceptBind h
  obtain ⟨_, a4, h⟩ := exceptBind h
  obtain ⟨m, a5, h⟩ := exceptBind h
  obtain ⟨o, a6, h⟩ := exceptBind h
  obtain ⟨x, a7, h⟩ := exceptBind h
  cases h
  exact ⟨by simpa using h1, by simpa using h2, by simpa using h3, by simpa using h4, by simpa using h5, a1, a2, a3, a4, a5, a6, rfl⟩

theorem checkArgs_ok {args : List (Name × Shape)} (h : checkArgs M args = .ok ()) : ∀ a ∈ args, ∃ v ∈ M.declared, (M.h v).name = a.1 ∧ M.shape v = a.2 := by
  induction args with
  | nil => simp
  | cons a as ih =>
    unfold checkArgs at h
    cases hv : (nameMap M.h M.declared).get? a.1 with
    | none => rw [hv] at h; cases h
    | some v =>
      rw [hv] at h; dsimp only at h
      by_cases hs : a.2 ≠ M.shape v
      · rw [if_pos hs] at h; cases h
      · rw [if_neg hs] at h
        intro b hb
        rcases List.mem_cons.1 hb with rfl | hb
        · exact ⟨v, (nameMap_some hv).1, (nameMap_some hv).2, (by simpa using hs : b.2 = M.shape v).symm⟩
        · exact ih h b hb

theorem checkNames_ok {d : Dict Name Nat} {e : ImpErr} {l : List Name} (h : checkNames d e l = .ok ()) : ∀ x ∈ l, d.has x = true := by
  induction l with
  | nil => simp
  | cons a l ih =>
    unfold checkNames at h
    by_cases ha : d.has a = true
    · rw [if_pos ha] at h
      intro b hb
      rcases List.mem_cons.1 hb with rfl | hb
      · exact ha
      · exact ih h b hb
    · rw [if_neg ha] at h; cases h

theorem pairUp_ok (l : List (Name × Name)) : ∀ {m m' : Dict Name Nat × Dict Name Nat}, (l.map (·.1)).Nodup → (l.map (·.2)).Nodup → pairUp M l m = .ok m' →
    (∀ e ∈ l, ∃ ro so, ro ∈ M.outputs ∧ (M.h ro).name = e.2 ∧ so ∈ M.declared ∧ (M.h so).name = e.1 ∧ M.shape ro = M.shape so ∧
      m'.1.get? e.1 = some ro ∧ m'.2.get? e.2 = some so) ∧
    (∀ s, s ∉ l.map (·.1) → m'.1.get? s = m.1.get? s) ∧ (∀ r, r ∉ l.map (·.2) → m'.2.get? r = m.2.get? r) ∧
    (m.1.keys.Nodup → m'.1.keys.Nodup) := by
  induction l with
  | nil => intro m m' _ _ h; cases h; exact ⟨by simp, fun _ _ => rfl, fun _ _ => rfl, fun h => h⟩
  | cons e l ih =>
    intro m m' n1 n2 h
    obtain ⟨s, r⟩ := e
    unfold pairUp at h
    rw [List.map_cons, List.nodup_cons] at n1 n2
    cases hro : (nameMap M.h M.outputs).get? r with
    | none => rw [hro] at h; cases h
    | some ro =>
      cases hso : (nameMap M.h M.declared).get? s with
      | none => rw [hro, hso] at h; cases h
      | some so =>
        rw [hro, hso] at h; dsimp only at h
        by_cases hs : M.shape ro ≠ M.shape so
        · rw [if_pos hs] at h; cases h
        rw [if_neg hs] at h
        obtain ⟨a1, a2, a3, a4⟩ := ih n1.2 n2.2 h
        dsimp only at a2 a3 a4
        refine ⟨?_, ?_, ?_, ?_⟩
        · intro e he
          rcases List.mem_cons.1 he with rfl | he
          · refine ⟨ro, so, (nameMap_some hro).1, (nameMap_some hro).2, (nameMap_some hso).1, (nameMap_some hso).2, by simpa using hs, ?_, ?_⟩
            · rw [a2 s n1.1, Dict.get?_set, if_pos rfl]
            · rw [a3 r n2.1, Dict.get?_set, if_pos rfl]
          · exact a1 e he
        · intro x hx
          simp only [List.map_cons, List.mem_cons, not_or] at hx
          rw [a2 x hx.2, Dict.get?_set, if_neg (Ne.symm hx.1)]
        · intro x hx
          simp only [List.map_cons, List.mem_cons, not_or] at hx
          rw [a3 x hx.2, Dict.get?_set, if_neg (Ne.symm hx.1)]
        · intro hn; exact a4 (Dict.nodup_set hn _ _)

theorem inMap_ok {fuel : Nat} {keep : List Name} {b : Bool} (l : List (Name × Nat)) : ∀ {d : Dict Name (List Nat)}, inMap M fuel keep b l = .ok d →
    ∀ s, (∀ r, Dict.get? l s = some r → ∃ ts, terminalsOf M fuel r = some ts ∧ (b = true → s ∈ ts.map fun v => (M.h v).name) ∧
      d.get? s = some (ts.filter fun v => (M.h v).name ∈ keep)) ∧ (Dict.get? l s = none → d.get? s = none) := by
  induction l with
  | nil => intro d h s; cases h; exact ⟨by simp [Dict.get?], fun _ => rfl⟩
  | cons e l ih =>
    intro d h s
    obtain ⟨s', r'⟩ := e
    unfold inMap at h
    cases ht : terminalsOf M fuel r' with
    | none => rw [ht] at h; cases h
    | some ts =>
      rw [ht] at h; dsimp only at h
      by_cases hb : b = true ∧ s' ∉ ts.map (fun v => (M.h v).name)
      · rw [if_pos hb] at h; cases h
      rw [if_neg hb] at h
      cases hd : inMap M fuel keep b l with
      | error e => rw [hd] at h; cases h
      | ok d1 =>
        rw [hd] at h; cases h
        obtain ⟨i1, i2⟩ := ih hd s
        by_cases hs : s' = s
        · subst hs
          refine ⟨fun r hr => ?_, fun hr => ?_⟩
          · have : r' = r := by simpa [Dict.get?] using hr
            subst this
            refine ⟨ts, ht, fun hb' => ?_, by simp [Dict.get?]⟩
            by_contra hc
            exact hb ⟨hb', hc⟩
          · simp [Dict.get?] at hr
        · have e1 : Dict.get? ((s', r') :: l) s = Dict.get? l s := by simp [Dict.get?, hs]
          have e2 : ∀ x, Dict.get? ((s', x) :: d1) s = Dict.get? d1 s := by intro x; simp [Dict.get?, hs]
          rw [e1, e2]
          exact ⟨i1, i2⟩

end

/-! ### C34 -/

/-- C34: when an implicit operation is accepted, for each state `s` with residual `r` the recorded inputs are exactly the variables without dependencies that `r` depends on (through
any number of operations, with any sharing) and that are arguments or states; and `r` depends on its own state.  `fuel` is any bound larger than the number of objects.
(Only dependencies between the objects of the residual model itself: see `C34_submodel_dependency_missed`.) -/
theorem C34_residual_inputs_exact_partial (M : IModel) (n fuel : Nat) (hn : FiniteVars M.h n) (hf : n < fuel) (args : List (Name × Shape)) (states residuals expose : List Name) (maps : IMaps)
    (h : genMaps M fuel args states residuals expose = .ok maps) (s : Name) (r : Nat) (hr : maps.outRes.get? s = some r) (hrn : r < n) (ho : OwnName M.h r) :
    ∃ l, maps.outIn.get? s = some l ∧
      (∀ v, v ∈ l ↔ DependsVar M.h r v ∧ Terminal M.h v ∧ ((M.h v).name ∈ args.map (·.1) ∨ (M.h v).name ∈ states)) ∧
      ∃ v, DependsVar M.h r v ∧ Terminal M.h v ∧ (M.h v).name = s := by
  obtain ⟨_, _, _, _, _, _, _, _, _, _, a6, _⟩ := genMaps_ok h
  obtain ⟨ts, t1, t2, t3⟩ := (inMap_ok _ a6 s).1 r hr
  obtain ⟨T, V, e, hT⟩ := terminals_exact hn hrn ho hf
  have : T = ts := by
    unfold terminalsOf at t1
    rw [e] at t1
    simpa using t1
  subst this
  refine ⟨_, t3, fun v => ?_, ?_⟩
  · rw [List.mem_filter, hT]
    simp only [List.mem_append, decide_eq_true_eq, and_assoc]
  · obtain ⟨v, hv, he⟩ := List.mem_map.1 (t2 rfl)
    exact ⟨v, ((hT v).1 hv).1, ((hT v).1 hv).2, he⟩

theorem inMap_error {M : IModel} {fuel : Nat} {keep : List Name} (l : List (Name × Nat)) {s : Name} {r : Nat} (hm : (s, r) ∈ l) {ts : List Nat}
    (ht : terminalsOf M fuel r = some ts) (hs : s ∉ ts.map (fun v => (M.h v).name)) : ∃ e, inMap M fuel keep true l = .error e := by
  induction l with
  | nil => cases hm
  | cons e l ih =>
    obtain ⟨s', r'⟩ := e
    unfold inMap
    cases ht' : terminalsOf M fuel r' with
    | none => exact ⟨_, rfl⟩
    | some ts' =>
      dsimp only
      by_cases hb : true = true ∧ s' ∉ ts'.map (fun v => (M.h v).name)
      · rw [if_pos hb]; exact ⟨_, rfl⟩
      rw [if_neg hb]
      rcases List.mem_cons.1 hm with he | hm
      · cases he
        rw [ht] at ht'; cases ht'
        exact absurd ⟨rfl, hs⟩ hb
      · obtain ⟨e, he⟩ := ih hm
        rw [he]; exact ⟨_, rfl⟩

/-- C34, rejection: if the residual paired with a state does not depend on a variable without dependencies named like the state, the call is rejected. -/
theorem C34_independent_residual_rejected (M : IModel) (n fuel : Nat) (hn : FiniteVars M.h n) (hf : n < fuel) (args : List (Name × Shape)) (states residuals expose : List Name)
    (s rn : Name) (hp : (s, rn) ∈ states.zip residuals) (hbad : ∀ r ∈ M.outputs, (M.h r).name = rn → r < n ∧ OwnName M.h r ∧ ¬ ∃ v, DependsVar M.h r v ∧ Terminal M.h v ∧ (M.h v).name = s) :
    ∃ e, genMaps M fuel args states residuals expose = .error e := by
  cases h : genMaps M fuel args states residuals expose with
  | error e => exact ⟨e, rfl⟩
  | ok maps =>
    exfalso
    obtain ⟨_, _, a3, a4, a5, _, _, _, _, a6, a7, _⟩ := genMaps_ok h
    have z1 : (states.zip residuals).map (·.1) = states := List.map_fst_zip (by omega)
    have z2 : (states.zip residuals).map (·.2) = residuals := List.map_snd_zip (by omega)
    obtain ⟨b1, _⟩ := pairUp_ok (states.zip residuals) (by rw [z1]; exact a3) (by rw [z2]; exact a4) a6
    obtain ⟨ro, so, c1, c2, _, _, _, c6, _⟩ := b1 _ hp
    obtain ⟨d1, d2, d3⟩ := hbad ro c1 c2
    obtain ⟨l, _, _, v, hv⟩ := C34_residual_inputs_exact_partial M n fuel hn hf args states residuals expose maps h s ro c6 d1 d2
    exact d3 ⟨v, hv⟩


/-- Residual model of the example: the state `y` (0) and the argument `a` (1) are declared; `p = f(y, a)` (operation 2, output 3) and `r = g(p, y)` (operation 4, output 5). -/
def exImpHeap : Heap := fun i => match i with
  | 0 => { kind := .var, name := "y".toList }
  | 1 => { kind := .var, name := "a".toList }
  | 2 => { kind := .op, name := "_0002".toList, deps := [0, 1], outs := [3] }
  | 3 => { kind := .var, name := "p".toList, deps := [2] }
  | 4 => { kind := .op, name := "_0004".toList, deps := [3, 0], outs := [5] }
  | 5 => { kind := .var, name := "r".toList, deps := [4] }
  | _ => { kind := .op, name := "_0009".toList }

def exImp : IModel := { h := exImpHeap, shape := fun _ => [1], outputs := [3, 5], declared := [0, 1] }

theorem exImp_reads {v w : Nat} (h : Reads exImpHeap v w) : w < v := by
  obtain ⟨op, ho, hw⟩ := h
  have hv : v < 6 ∨ ∃ k, v = k + 6 := by rcases Nat.lt_or_ge v 6 with h | h; exact Or.inl h; exact Or.inr ⟨v - 6, by omega⟩
  rcases hv with hv | ⟨k, rfl⟩
  · have hd : ∀ v < 6, ∀ op ∈ (exImpHeap v).deps, ∀ w ∈ (exImpHeap op).deps, w < v := by decide
    exact hd v hv op ho w hw
  · simp [exImpHeap] at ho

theorem exImp_depends {v w : Nat} (h : DependsVar exImpHeap v w) : w < v := by
  induction h with
  | single h => exact exImp_reads h
  | tail _ h ih => exact (exImp_reads h).trans ih

/-- the hypotheses of the two theorems hold of the example -/
example : FiniteVars exImp.h 6 ∧ OwnName exImp.h 5 ∧ ∃ maps, genMaps exImp 7 [("a".toList, [1])] ["y".toList] ["r".toList] ["p".toList] = .ok maps ∧
    maps.outRes.get? "y".toList = some 5 ∧ maps.outIn.get? "y".toList = some [1, 0] := by
  refine ⟨fun v hv w hw => (exImp_reads hw).trans hv, ?_, ?_⟩
  · intro w hw hn
    have := exImp_depends hw
    match w with
    | 0 | 1 | 2 | 3 | 4 => revert hn; decide
    | 5 => rfl
    | n + 6 => omega
  · obtain ⟨maps, hm, h⟩ := ok_of_check (x := genMaps exImp 7 [("a".toList, [1])] ["y".toList] ["r".toList] ["p".toList]) (P := fun maps =>
      decide (maps.outRes.get? "y".toList = some 5 ∧ maps.outIn.get? "y".toList = some [1, 0])) (by decide)
    exact ⟨maps, hm, of_decide_eq_true h⟩

/-- and of the rejection: `p` as the residual of a declared variable `b` it does not depend on -/
example : ∃ e, genMaps { exImp with h := fun i => if i = 6 then { kind := .var, name := "b".toList } else exImpHeap i, declared := [0, 1, 6] } 8 [] ["b".toList] ["p".toList] [] = .error e := ⟨.dependency, by rfl⟩

/-! #### dependencies through submodels -/

/-- Residual model: the state `y` (0) is declared, `z` (1) is declared and operation 2 maps it to the residual `r` (3).  Its submodel `A` (4), promoting everything, declares `y` (5), which
operation 6 maps to the output `z` (7). -/
def exSubHeap : NHeap := fun i => match i with
  | 0 => { kind := .var, name := "y".toList, auto := "_0000".toList }
  | 1 => { kind := .var, name := "z".toList, auto := "_0001".toList }
  | 2 => { kind := .op, name := "_0002".toList }
  | 3 => { kind := .var, name := "r".toList, auto := "_0003".toList, role := .output }
  | 4 => { kind := .model, name := "A".toList }
  | 5 => { kind := .var, name := "y".toList, auto := "_0005".toList }
  | 6 => { kind := .op, name := "_0006".toList }
  | 7 => { kind := .var, name := "z".toList, auto := "_0007".toList, role := .output }
  | _ => { kind := .op, name := "_0009".toList }

/-- the same objects as csdl `Node`s -/
def exSubObjs : Heap := fun i => { kind := (exSubHeap i).kind, name := (exSubHeap i).name, deps := if i = 2 then [1] else if i = 3 then [2] else if i = 6 then [5] else if i = 7 then [6] else [],
                                   outs := if i = 2 then [3] else if i = 6 then [7] else [] }
def exSubGraph : Graph := { nodes := [4, 0, 1, 2, 3], edges := [(1, 2), (2, 3)] }
def exSubKids : Kids := .cons 4 "A".toList { nodes := [5, 6, 7], edges := [(5, 6), (6, 7)] } .nil .nil
def exSubA : Model := .mk { outputs := [⟨"z".toList, [1]⟩], declared := [⟨"y".toList, [1]⟩] } .nil
def exSubModel : Model := .mk { outputs := [⟨"r".toList, [1]⟩], declared := [⟨"y".toList, [1]⟩, ⟨"z".toList, [1]⟩] } (.cons "A".toList none exSubA .nil)

/-- C34 as stated is false when the residual model has submodels: only the objects of the residual model itself are searched.  Above, the flat graph of the residual model
has the edges `y -> 6 -> z -> 2 -> r`, so `r` depends on the state `y`; but the call is rejected because "Residual r does not depend on state y". -/
theorem C34_submodel_dependency_missed :
    (∃ r st, resolve exSubModel none = .ok r ∧ flatten exSubHeap r.p2u (createReverseMap r.p2u) exSubGraph exSubKids = .ok st ∧
      [(0, 6), (6, 7), (7, 2), (2, 3)] ⊆ (mergeAuto exSubHeap id st).edges) ∧
    genMaps { h := exSubObjs, shape := fun _ => [1], outputs := [3], declared := [0, 1] } 9 [] ["y".toList] ["r".toList] [] = .error .dependency := by
  refine ⟨?_, by rfl⟩
  obtain ⟨r, hr, h⟩ := ok_of_check (x := resolve exSubModel none) (P := fun r =>
    okCheck (flatten exSubHeap r.p2u (createReverseMap r.p2u) exSubGraph exSubKids) fun st =>
      decide ([(0, 6), (6, 7), (7, 2), (2, 3)] ⊆ (mergeAuto exSubHeap id st).edges)) (by decide)
  obtain ⟨st, hst, h⟩ := ok_of_check h
  exact ⟨r, st, hr, hst, of_decide_eq_true h⟩

/-! ### C35 -/

theorem foldl_declareState (cs : List (Name × Name × StateVal)) : ∀ f : Factory, cs.foldl Factory.declareState f =
    ⟨f.residuals ++ cs.map (·.2.1), f.states.update (cs.map fun c => (c.1, c.2.2))⟩ := by
  induction cs with
  | nil => intro f; simp [Dict.update]
  | cons c cs ih => intro f; rw [List.foldl_cons, ih]; simp [Factory.declareState, Dict.update]

theorem nodup_of_ofPairs {ν : Type} {l : List (Name × ν)} (h : (Dict.ofPairs l).length = l.length) : (l.map Prod.fst).Nodup := by
  have h1 : (l.map Prod.fst).toFinset = (Dict.ofPairs l).keys.toFinset := by
    ext k; rw [List.mem_toFinset, List.mem_toFinset, Dict.keys_ofPairs]
  have h2 : (l.map Prod.fst).toFinset.card = (l.map Prod.fst).length := by
    rw [h1, List.toFinset_card_of_nodup (Dict.nodup_ofPairs l)]
    simp [Dict.keys, h]
  exact Multiset.toFinset_card_eq_card_iff_nodup.1 h2

theorem stateOuts_ok {M : IModel} (l : List (Name × StateVal)) : ∀ {outs}, stateOuts M l = .ok outs → outs.map (·.1) = l.map (·.1) ∧
    List.Forall₂ (fun (s : Name × StateVal) (o : Name × Shape) => o.1 = s.1 ∧ ∃ x ∈ M.declared, (M.h x).name = s.1 ∧ stateShape (M.shape x) s.2 = .ok o.2) l outs := by
  induction l with
  | nil => intro outs h; cases h; exact ⟨rfl, .nil⟩
  | cons e l ih =>
    intro outs h
    obtain ⟨s, v⟩ := e
    unfold stateOuts at h
    cases hx : M.declared.filter (fun x => (M.h x).name = s) with
    | nil => rw [hx] at h; cases h
    | cons x xs =>
      rw [hx] at h; dsimp only at h
      have hm : x ∈ M.declared.filter (fun x => (M.h x).name = s) := by rw [hx]; simp
      rw [List.mem_filter, decide_eq_true_eq] at hm
      cases hs : stateShape (M.shape x) v with
      | error e => rw [hs] at h; cases h
      | ok sh =>
        rw [hs] at h; dsimp only at h
        cases ho : stateOuts M l with
        | error e => rw [ho] at h; cases h
        | ok os =>
          rw [ho] at h; cases h
          obtain ⟨i1, i2⟩ := ih ho
          exact ⟨by simp [i1], .cons ⟨rfl, x, hm.1, hm.2, hs⟩ i2⟩

theorem pairUp_keys {M : IModel} (l : List (Name × Name)) : ∀ {m m' : Dict Name Nat × Dict Name Nat}, pairUp M l m = .ok m' →
    (∀ s, s ∈ m'.1.keys ↔ s ∈ m.1.keys ∨ s ∈ l.map (·.1)) ∧ (∀ s, s ∈ m'.2.keys ↔ s ∈ m.2.keys ∨ s ∈ l.map (·.2)) := by
  induction l with
  | nil => intro m m' h; cases h; simp
  | cons e l ih =>
    intro m m' h
    obtain ⟨s, r⟩ := e
    unfold pairUp at h
    cases hro : (nameMap M.h M.outputs).get? r with
    | none => rw [hro] at h; cases h
    | some ro =>
      cases hso : (nameMap M.h M.declared).get? s with
      | none => rw [hro, hso] at h; cases h
      | some so =>
        rw [hro, hso] at h; dsimp only at h
        by_cases hs : M.shape ro ≠ M.shape so
        · rw [if_pos hs] at h; cases h
        rw [if_neg hs] at h
        obtain ⟨a1, a2⟩ := ih h
        refine ⟨fun x => ?_, fun x => ?_⟩
        · rw [a1 x, Dict.keys_set, List.map_cons, List.mem_cons]; exact or_assoc
        · rw [a2 x, Dict.keys_set, List.map_cons, List.mem_cons]; exact or_assoc

theorem implicitCall_ok {M : IModel} {fuel : Nat} {used : List Name} {f : Factory} {args : List (Name × Shape)} {expose : List Name} {maps : IMaps} {outs : List (Name × Shape)}
    (h : implicitCall M fuel used f args expose = .ok (maps, outs)) :
    genMaps M fuel args (f.states.map (·.1)) f.residuals expose = .ok maps ∧ ∃ so, stateOuts M f.states = .ok so ∧ outs = so ++ exposedOuts M expose ∧ registerNew used outs = .ok () := by
  unfold implicitCall at h
  obtain ⟨m, h1, h⟩ := exceptBind h
  obtain ⟨so, h2, h⟩ := exceptBind h
  obtain ⟨_, h3, h⟩ := exceptBind h
  cases h
  exact ⟨h1, so, h2, rfl, h3⟩

/-- C35 (partial): let an implicit operation be created by the calls `declare_state(c.1, residual=c.2.1, val=c.2.2)` for `c` in `cs`, in this order, and then called with the arguments
`args`, and accepted.  Then states and residuals are distinct; every state is a declared variable, and its residual an output, of the same shape; the two maps
stored on the operation send each state to its residual and each residual to its state, contain nothing else, and are inverse to each other; every argument is a declared variable
of the same shape; the returned outputs are the states in order followed by the outputs named in `expose`.
Missing: the shape of the outputs returned for the states; see `C35_state_shape_changed`. -/
theorem C35_states_residuals_paired_partial (M : IModel) (fuel : Nat) (used : List Name) (cs : List (Name × Name × StateVal)) (args : List (Name × Shape)) (expose : List Name) (maps : IMaps)
    (outs : List (Name × Shape)) (h : implicitCall M fuel used (Factory.declareAll cs) args expose = .ok (maps, outs)) :
    (cs.map (·.1)).Nodup ∧ (cs.map (·.2.1)).Nodup ∧
    (∀ c ∈ cs, ∃ ro so, ro ∈ M.outputs ∧ (M.h ro).name = c.2.1 ∧ so ∈ M.declared ∧ (M.h so).name = c.1 ∧ M.shape ro = M.shape so ∧
      maps.outRes.get? c.1 = some ro ∧ maps.resOut.get? c.2.1 = some so) ∧
    (∀ s, s ∈ maps.outRes.keys ↔ s ∈ cs.map (·.1)) ∧ (∀ r, r ∈ maps.resOut.keys ↔ r ∈ cs.map (·.2.1)) ∧
    (∀ s r, (∃ ro, maps.outRes.get? s = some ro ∧ (M.h ro).name = r) ↔ (∃ so, maps.resOut.get? r = some so ∧ (M.h so).name = s)) ∧
    (∀ a ∈ args, ∃ v ∈ M.declared, (M.h v).name = a.1 ∧ M.shape v = a.2) ∧
    (∃ ex, outs.map (·.1) = cs.map (·.1) ++ ex ∧ ∀ x, x ∈ ex ↔ x ∈ expose) := by
  obtain ⟨h1, so, h2, rfl, _⟩ := implicitCall_ok h
  obtain ⟨_, _, a3, a4, a5, a6, _, _, a9, a10, _, _⟩ := genMaps_ok h1
  have hf := foldl_declareState cs {}
  have ef : Factory.declareAll cs = ⟨cs.map (·.2.1), Dict.ofPairs (cs.map fun c => (c.1, c.2.2))⟩ := by
    unfold Factory.declareAll; rw [hf]; simp [Dict.ofPairs]
  rw [ef] at a3 a4 a5 a10 h2
  dsimp only at a3 a4 a5 a10 h2
  have hcs : (cs.map fun c => (c.1, c.2.2)).map Prod.fst = cs.map (·.1) := by simp
  have hnd : (cs.map (·.1)).Nodup := by
    rw [← hcs]; exact nodup_of_ofPairs (by simpa using a5)
  have est : Dict.ofPairs (cs.map fun c => (c.1, c.2.2)) = cs.map fun c => (c.1, c.2.2) := Dict.ofPairs_eq (by rw [hcs]; exact hnd)
  rw [est] at a10 h2
  have ez : (List.map (fun x => x.1) (cs.map fun c => (c.1, c.2.2))).zip (cs.map (·.2.1)) = cs.map fun c => (c.1, c.2.1) := by
    rw [List.map_map]
    clear * -
    induction cs with
    | nil => rfl
    | cons c cs ih => simpa using ih
  rw [ez] at a10
  have z1 : (cs.map fun c => (c.1, c.2.1)).map (·.1) = cs.map (·.1) := by simp
  have z2 : (cs.map fun c => (c.1, c.2.1)).map (·.2) = cs.map (·.2.1) := by simp
  obtain ⟨b1, _⟩ := pairUp_ok _ (by rw [z1]; exact hnd) (by rw [z2]; exact a4) a10
  obtain ⟨k1, k2⟩ := pairUp_keys _ a10
  have c3 : ∀ c ∈ cs, ∃ ro so, ro ∈ M.outputs ∧ (M.h ro).name = c.2.1 ∧ so ∈ M.declared ∧ (M.h so).name = c.1 ∧ M.shape ro = M.shape so ∧
      maps.outRes.get? c.1 = some ro ∧ maps.resOut.get? c.2.1 = some so := fun c hc => b1 (c.1, c.2.1) (List.mem_map.2 ⟨c, hc, rfl⟩)
  have k1' : ∀ s, s ∈ maps.outRes.keys ↔ s ∈ cs.map (·.1) := fun s => by rw [k1 s, z1]; simp [Dict.keys]
  have k2' : ∀ r, r ∈ maps.resOut.keys ↔ r ∈ cs.map (·.2.1) := fun s => by rw [k2 s, z2]; simp [Dict.keys]
  refine ⟨hnd, a4, c3, k1', k2', ?_, checkArgs_ok a6, ?_⟩
  · intro s r
    constructor
    · rintro ⟨ro, hro, rfl⟩
      obtain ⟨c, hc, rfl⟩ := List.mem_map.1 ((k1' s).1 (Dict.get?_mem_keys hro))
      obtain ⟨ro', so', _, e1, _, e2, _, e3, e4⟩ := c3 c hc
      rw [hro] at e3; cases e3
      exact ⟨so', by rw [e1]; exact e4, e2⟩
    · rintro ⟨so', hso, rfl⟩
      obtain ⟨c, hc, rfl⟩ := List.mem_map.1 ((k2' r).1 (Dict.get?_mem_keys hso))
      obtain ⟨ro', so'', _, e1, _, e2, _, e3, e4⟩ := c3 c hc
      rw [hso] at e4; cases e4
      exact ⟨ro', by rw [e2]; exact e3, e1⟩
  · obtain ⟨s1, _⟩ := stateOuts_ok _ h2
    refine ⟨(exposedOuts M expose).map (·.1), by rw [List.map_append, s1]; simp, fun x => ?_⟩
    unfold exposedOuts
    simp only [List.map_map, List.mem_map, List.mem_filter, decide_eq_true_eq, Function.comp]
    constructor
    · rintro ⟨v, hv, rfl⟩; exact hv.2
    · intro hx
      obtain ⟨v, hv⟩ := nameMap_has (checkNames_ok a9 x hx)
      obtain ⟨v1, v2⟩ := nameMap_some hv
      exact ⟨v, ⟨v1, by rw [v2]; exact hx⟩, v2⟩

/-- the hypothesis holds of the example -/
example : ∃ maps, implicitCall exImp 7 ["a".toList] (Factory.declareAll [("y".toList, "r".toList, .number)]) [("a".toList, [1])] ["p".toList] =
    .ok (maps, [("y".toList, [1]), ("p".toList, [1])]) := ⟨_, rfl⟩

/-- C35 as stated is false of the code: the shape of the output returned for a state is that of the value given to `declare_state`, if the state has shape (1,).  The example above
with an array of shape (3,) is accepted, and the output `y` has shape (3,), although state and residual have shape (1,). -/
theorem C35_state_shape_changed : ∃ maps, implicitCall exImp 7 ["a".toList] (Factory.declareAll [("y".toList, "r".toList, .array [3])]) [("a".toList, [1])] [] =
    .ok (maps, [("y".toList, [3])]) ∧ ∀ v, exImp.shape v = [1] := ⟨_, rfl, fun _ => rfl⟩

/-- C35, the shapes of the outputs returned for the states (partial): if declared variables have distinct names and every array given as the value of a state has the shape of
the state, then the shape of every output returned for a state is the shape of the state and of its residual. -/
theorem C35_state_shapes_partial (M : IModel) (fuel : Nat) (used : List Name) (cs : List (Name × Name × StateVal)) (args : List (Name × Shape)) (expose : List Name) (maps : IMaps)
    (outs : List (Name × Shape)) (h : implicitCall M fuel used (Factory.declareAll cs) args expose = .ok (maps, outs))
    (hd : ∀ v ∈ M.declared, ∀ w ∈ M.declared, (M.h v).name = (M.h w).name → v = w)
    (hv : ∀ c ∈ cs, ∀ sh, c.2.2 = .array sh → ∀ v ∈ M.declared, (M.h v).name = c.1 → M.shape v = sh) :
    ∀ (i : Nat) (c : Name × Name × StateVal), cs[i]? = some c → ∃ ro so, maps.outRes.get? c.1 = some ro ∧ maps.resOut.get? c.2.1 = some so ∧
      outs[i]? = some (c.1, M.shape so) ∧ M.shape ro = M.shape so := by
  intro i c hc
  have hmem : c ∈ cs := List.mem_of_getElem? hc
  obtain ⟨hnd, _, c3, _⟩ := C35_states_residuals_paired_partial M fuel used cs args expose maps outs h
  obtain ⟨ro, so, d1, d2, d3, d4, d5, d6, d7⟩ := c3 c hmem
  refine ⟨ro, so, d6, d7, ?_, d5⟩
  obtain ⟨h1, os, h2, rfl, _⟩ := implicitCall_ok h
  have est : (Factory.declareAll cs).states = cs.map fun c => (c.1, c.2.2) := by
    unfold Factory.declareAll; rw [foldl_declareState]
    exact Dict.ofPairs_eq (by rw [List.map_map]; exact hnd)
  rw [est] at h2
  obtain ⟨_, hall⟩ := stateOuts_ok _ h2
  have hi : i < cs.length := (List.getElem?_eq_some_iff.1 hc).1
  have hlen := hall.length_eq
  rw [List.length_map] at hlen
  rw [List.forall₂_iff_get] at hall
  obtain ⟨e1, x, x1, x2, x3⟩ := hall.2 i (by simpa using hi) (by omega)
  have ec : (cs.map fun c => (c.1, c.2.2)).get ⟨i, by simpa using hi⟩ = (c.1, c.2.2) := by
    have := (List.getElem?_eq_some_iff.1 hc).2
    simp [this]
  rw [ec] at e1 x2 x3
  dsimp only at e1 x2 x3
  have : x = so := hd x x1 so d3 (by rw [x2, d4])
  subst this
  have hsh : (os.get ⟨i, by omega⟩).2 = M.shape x := by
    cases hcv : c.2.2 with
    | number => rw [hcv] at x3; simp [stateShape] at x3; exact x3.symm
    | array sh =>
      have := hv c hmem sh hcv x x1 x2
      rw [hcv, this] at x3
      unfold stateShape at x3
      dsimp only at x3
      by_cases h1 : sh = [1]
      · rw [if_pos h1] at x3; cases x3; rw [this]
      · rw [if_neg h1, if_pos rfl] at x3; cases x3; rw [this]
  rw [List.getElem?_append_left (by omega), List.getElem?_eq_some_iff]
  exact ⟨by omega, Prod.ext (by simpa using e1) (by simpa using hsh)⟩

/-- the hypotheses hold of the example: the value is an array of shape (1,) -/
example : ∃ maps, implicitCall exImp 7 ["a".toList] (Factory.declareAll [("y".toList, "r".toList, .array [1])]) [("a".toList, [1])] ["p".toList] =
    .ok (maps, [("y".toList, [1]), ("p".toList, [1])]) := ⟨_, rfl⟩

def exDupHeap : Heap := fun i => match i with
  | 0 => { kind := .var, name := "y".toList }
  | 1 => { kind := .var, name := "y".toList }
  | 2 => { kind := .op, name := "_0002".toList, deps := [1], outs := [3] }
  | 3 => { kind := .var, name := "r".toList, deps := [2] }
  | _ => { kind := .op, name := "_0009".toList }

def exDup : IModel := { h := exDupHeap, shape := fun i => if i = 0 then [2] else [3], outputs := [3], declared := [0, 1] }

/-- Without distinct declared names the shape is wrong too: `y` (0, shape (2,)) and again `y` (1, shape (3,)) are declared and the residual has shape (3,); the maps use the last
declaration, the output returned the first. -/
theorem C35_duplicate_declared : ∃ maps, implicitCall exDup 5 [] (Factory.declareAll [("y".toList, "r".toList, .number)]) [] [] = .ok (maps, [("y".toList, [2])]) ∧
    maps.resOut.get? "r".toList = some 1 := ⟨_, rfl, rfl⟩

/-! ### C36 -/

/-- C36 is false of the code: exposed outputs are returned in the order in which they were registered.  In the example, with `p` registered before `q`, and `expose=['q', 'p']`,
the outputs returned are `y`, `p`, `q`. -/
theorem C36_registration_order : ∃ maps, implicitCall { exImp with h := fun i => if i = 6 then { kind := .var, name := "q".toList, deps := [2] } else exImpHeap i, outputs := [3, 6, 5] } 8 []
      (Factory.declareAll [("y".toList, "r".toList, .number)]) [] ["q".toList, "p".toList] = .ok (maps, [("y".toList, [1]), ("p".toList, [1]), ("q".toList, [1])]) := ⟨_, rfl⟩

/-- C36 (partial): if the names in `expose` are distinct and in the order in which the outputs were registered in the residual model, then the outputs returned after the states are
exactly those of `expose`, in order; whatever the order, distinct names give a permutation. -/
theorem C36_exposed_order_partial (M : IModel) (fuel : Nat) (used : List Name) (cs : List (Name × Name × StateVal)) (args : List (Name × Shape)) (expose : List Name) (maps : IMaps)
    (outs : List (Name × Shape)) (h : implicitCall M fuel used (Factory.declareAll cs) args expose = .ok (maps, outs))
    (hu : (M.outputs.map fun x => (M.h x).name).Nodup) (he : expose.Nodup) :
    ∃ ex, outs.map (·.1) = cs.map (·.1) ++ ex ∧ ex.Perm expose ∧ ((expose.Sublist (M.outputs.map fun x => (M.h x).name)) → ex = expose) := by
  obtain ⟨hnd, _, _, _, _, _, _, ex0, h1, h2⟩ := C35_states_residuals_paired_partial M fuel used cs args expose maps outs h
  obtain ⟨_, os, h3, rfl, _⟩ := implicitCall_ok h
  have est : (Factory.declareAll cs).states = cs.map fun c => (c.1, c.2.2) := by
    unfold Factory.declareAll; rw [foldl_declareState]
    exact Dict.ofPairs_eq (by rw [List.map_map]; exact hnd)
  rw [est] at h3
  obtain ⟨s1, _⟩ := stateOuts_ok _ h3
  have e1 : os.map (·.1) = cs.map (·.1) := by rw [s1]; simp
  have e2 : (exposedOuts M expose).map (·.1) = (M.outputs.map fun x => (M.h x).name).filter (· ∈ expose) := by
    unfold exposedOuts; rw [List.filter_map, List.map_map]; rfl
  rw [List.map_append, e1, e2] at h1
  have h1' := List.append_cancel_left h1
  subst h1'
  have hp : ((M.outputs.map fun x => (M.h x).name).filter (· ∈ expose)).Perm expose := (List.perm_ext_iff_of_nodup (hu.filter _) he).2 h2
  refine ⟨_, by rw [List.map_append, e1, e2], hp, fun hs => ?_⟩
  have h5 : (expose.filter (· ∈ expose)).Sublist ((M.outputs.map fun x => (M.h x).name).filter (· ∈ expose)) := hs.filter _
  rw [List.filter_eq_self.2 (by simp)] at h5
  exact (h5.eq_of_length hp.length_eq.symm).symm

/-- the hypotheses hold of the example with two exposed outputs, in the order of registration -/
example : (∃ maps, implicitCall { exImp with h := fun i => if i = 6 then { kind := .var, name := "q".toList, deps := [2] } else exImpHeap i, outputs := [3, 6, 5] } 8 []
      (Factory.declareAll [("y".toList, "r".toList, .number)]) [] ["p".toList, "q".toList] = .ok (maps, [("y".toList, [1]), ("p".toList, [1]), ("q".toList, [1])])) ∧
    ["p".toList, "q".toList].Sublist ["p".toList, "q".toList, "r".toList] := ⟨⟨_, rfl⟩, by decide⟩

end Csdl
