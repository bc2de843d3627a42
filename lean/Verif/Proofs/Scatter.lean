import Verif.Props.Concat
import Verif.Spec.Program
/-
Elements of an array that is assembled from parts.
-/
namespace Csdl.Prog
open Csdl Csdl.Arith
variable {K : Type}

/-- an element of an assigned part -/
theorem scatter_hit {shape : Shape} {val : Val K} {i : List Nat} {e : Shape × List Int} {a : Val K} {j : Nat} (hn : e.2.Nodup) (hj : e.2[j]? = some (ravel shape i : Int)) :
    ∀ {l : List ((Shape × List Int) × Val K)}, (l.map (·.1)).Pairwise (fun e e' => ∀ i ∈ e.2, i ∉ e'.2) → (e, a) ∈ l → scatter shape val l i = a (unravel e.1 j)
  | [], _, h => by simp at h
  | (e', a') :: l, hp, h => by
    rw [List.map_cons, List.pairwise_cons] at hp
    unfold scatter
    rcases List.mem_cons.1 h with h | h
    · cases h
      rw [if_pos (List.mem_of_getElem? hj)]
      have h2 : j < e.2.length := by
        rcases Nat.lt_or_ge j e.2.length with h | h
        · exact h
        · rw [List.getElem?_eq_none h] at hj; cases hj
      have h3 : e.2[j] = (ravel shape i : Int) := by rw [List.getElem?_eq_getElem h2] at hj; exact Option.some.inj hj
      rw [← h3, List.Nodup.idxOf_getElem hn j h2]
    · rw [if_neg]
      · exact scatter_hit hn hj hp.2 h
      · intro hm
        exact hp.1 e (List.mem_map.2 ⟨_, h, rfl⟩) _ hm (List.mem_of_getElem? hj)

/-- an element of no assigned part -/
theorem scatter_miss {shape : Shape} {val : Val K} {i : List Nat} : ∀ {l : List ((Shape × List Int) × Val K)}, (∀ p ∈ l, (ravel shape i : Int) ∉ p.1.2) → scatter shape val l i = val i
  | [], _ => rfl
  | (e', a') :: l, h => by
    unfold scatter
    rw [if_neg (show (ravel shape i : Int) ∉ e'.2 from h (e', a') (by simp))]
    exact scatter_miss fun p hp => h p (by simp [hp])

theorem zip_of_forall₂ {α β γ : Type} {R : α → β → Prop} {f : α → γ} : ∀ {as : List α} {es : List β}, List.Forall₂ R as es →
    (es.zip (as.map f)).map (·.1) = es ∧ (∀ e c, (e, c) ∈ es.zip (as.map f) → ∃ a ∈ as, R a e ∧ c = f a) ∧ ∀ a ∈ as, ∃ e, R a e ∧ (e, f a) ∈ es.zip (as.map f)
  | _, _, .nil => by simp
  | _, _, .cons (a := a) (b := e) h1 h2 => by
    obtain ⟨g1, g2, g3⟩ := zip_of_forall₂ (f := f) h2
    refine ⟨by simp [g1], ?_, ?_⟩
    · intro e' c hm
      rw [List.map_cons, List.zip_cons_cons] at hm
      rcases List.mem_cons.1 hm with hm | hm
      · cases hm
        exact ⟨a, by simp, h1, rfl⟩
      · obtain ⟨a', k1, k2, k3⟩ := g2 _ _ hm
        exact ⟨a', by simp [k1], k2, k3⟩
    · intro a' hm
      rw [List.map_cons, List.zip_cons_cons]
      rcases List.mem_cons.1 hm with rfl | hm
      · exact ⟨e, h1, by simp⟩
      · obtain ⟨e', k1, k2⟩ := g3 _ hm
        exact ⟨e', k1, by simp [k2]⟩

end Csdl.Prog
