import Verif.Spec.Promotions
/-
Boolean versions of the hierarchy predicates, used only to show that concrete hierarchies meet
the hypotheses of the theorems.
-/
namespace Csdl

mutual
def Model.allB (P : Local → List Subgraph → Bool) : Model → Bool
  | .mk l subs => P l subs.toList && Subs.allB P subs
def Subs.allB (P : Local → List Subgraph → Bool) : Subs → Bool
  | .nil => true
  | .cons _ _ m rest => Model.allB P m && Subs.allB P rest
end

theorem Subs.allB_mem {P} : ∀ {subs : Subs}, Subs.allB P subs = true → ∀ s ∈ subs.toList, Model.allB P s.model = true
  | .nil => by simp [Subs.toList]
  | .cons n p m rest => by
    intro h s hs
    simp only [Subs.allB, Bool.and_eq_true] at h
    simp only [Subs.toList, List.mem_cons] at hs
    rcases hs with rfl | hs
    · exact h.1
    · exact Subs.allB_mem h.2 s hs

theorem Model.allB_at {P} {m : Model} {path l subs} (h : Model.allB P m = true) (hat : At m path (.mk l subs)) :
    P l subs.toList = true := by
  generalize hm : Model.mk l subs = m' at hat
  induction hat with
  | here m =>
    subst hm
    simp only [Model.allB, Bool.and_eq_true] at h
    exact h.1
  | down hs _ ih =>
    simp only [Model.allB, Bool.and_eq_true] at h
    exact ih (Subs.allB_mem h.2 _ hs) hm

def dotFreeB : Model → Bool := Model.allB fun l subs =>
  l.sources.all (fun v => !decide ('.' ∈ v.name)) && l.declared.all (fun v => !decide ('.' ∈ v.name)) &&
  subs.all (fun s => !decide (s.name = []) && !decide ('.' ∈ s.name)) && decide (subs.map Subgraph.name).Nodup

theorem dotFree_of {m : Model} (h : dotFreeB m = true) : DotFree m := by
  intro path l subs hat
  have := Model.allB_at h hat
  simp only [Bool.and_eq_true, List.all_eq_true, Bool.not_eq_true', decide_eq_false_iff_not, decide_eq_true_eq] at this
  obtain ⟨⟨⟨h1, h2⟩, h3⟩, h4⟩ := this
  refine ⟨?_, h3, h4⟩
  intro k v hv
  cases k
  · exact h1 v hv
  · exact h2 v hv

def distinctB : Model → Bool := Model.allB fun l _ =>
  decide (l.sources.map VarInfo.name).Nodup && decide (l.declared.map VarInfo.name).Nodup

theorem distinct_of {m : Model} (h : distinctB m = true) : DistinctSources m ∧ DistinctTargets m := by
  refine ⟨fun path l subs hat => ?_, fun path l subs hat => ?_⟩ <;>
  · have := Model.allB_at h hat
    simp only [Bool.and_eq_true, decide_eq_true_eq] at this
    first | exact this.1 | exact this.2

end Csdl
