import Verif.Spec.Subtree
import Verif.Spec.Predicted

/-! # Subtrees of predicted trees -/

set_option linter.unusedSectionVars false

namespace Verif.Spec

variable {L T : Type} {eps : T} {ps : List (Production T)}
  {cand : T → T → List (List T)} {tokens : List (Token L T)}

mutual
/-- A predicted tree is also predicted for the tokens from its position on. -/
theorem Predicted.shift (i : Nat) {x : T} {a b : Nat} {n : Node L T}
    (h : Predicted eps ps cand tokens x a n b) : i ≤ a →
    Predicted eps ps cand (tokens.drop i) x (a - i) n (b - i) ∧ a ≤ b := by
  intro hi
  match h with
  | .leaf t _ h1 h2 h3 =>
    refine ⟨?_, by omega⟩
    have e : a + 1 - i = a - i + 1 := by omega
    rw [e]
    refine .leaf t _ h1 h2 ?_
    rw [List.getElem?_drop]
    rw [show i + (a - i) = a by omega]
    exact h3
  | .eps _ => exact ⟨.eps _, Nat.le_refl _⟩
  | .node _ _ t out ns _ h1 h2 h3 h4 =>
    obtain ⟨h5, h6⟩ := PredictedSeq.shift i h4 hi
    refine ⟨.node _ _ t out ns _ h1 ?_ h3 h5, h6⟩
    rw [List.getElem?_drop, show i + (a - i) = a by omega]
    exact h2
theorem PredictedSeq.shift (i : Nat) {xs : List T} {a b : Nat} {ns : List (Node L T)}
    (h : PredictedSeq eps ps cand tokens xs a ns b) : i ≤ a →
    PredictedSeq eps ps cand (tokens.drop i) xs (a - i) ns (b - i) ∧ a ≤ b := by
  intro hi
  match h with
  | .nil _ => exact ⟨.nil _, Nat.le_refl _⟩
  | .cons _ _ _ j _ n ns h1 h2 =>
    obtain ⟨h3, h4⟩ := Predicted.shift i h1 hi
    obtain ⟨h5, h6⟩ := PredictedSeq.shift i h2 (by omega)
    exact ⟨.cons _ _ _ _ _ _ _ h3 h5, by omega⟩
end

/-- Children of predicted trees are predicted. -/
theorem PredictedSeq.of_mem {xs : List T} {a b : Nat} {ns : List (Node L T)}
    (h : PredictedSeq eps ps cand tokens xs a ns b) {c : Node L T} (hc : c ∈ ns) :
    ∃ x a' b', Predicted eps ps cand tokens x a' c b' := by
  induction xs generalizing a ns with
  | nil => cases h; simp at hc
  | cons x xs ih =>
    cases h with
    | cons _ _ _ j _ n ns h1 h2 =>
      rcases List.mem_cons.1 hc with rfl | hc
      · exact ⟨_, _, _, h1⟩
      · exact ih h2 hc

/-- Subtrees of predicted trees are predicted. -/
theorem Predicted.subtree {m n : Node L T} (hm : Subtree m n) {x : T} {a b : Nat}
    (h : Predicted eps ps cand tokens x a n b) : ∃ y a' b', Predicted eps ps cand tokens y a' m b' := by
  induction hm generalizing x a b with
  | self => exact ⟨_, _, _, h⟩
  | child c ns t hc _ ih =>
    cases h with
    | leaf => simp at hc
    | eps => simp at hc
    | node _ _ _ _ _ _ _ _ _ h4 =>
      obtain ⟨y, a', b', h5⟩ := h4.of_mem hc
      exact ih h5

end Verif.Spec
