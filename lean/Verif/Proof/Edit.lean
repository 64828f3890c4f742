import Verif.Spec.Edit
import Verif.Proof.ParseTree
import Verif.Proof.LL1
import Verif.Proof.PredictedAt

/-!
# Replacing a node of a tree
-/

set_option linter.unusedSectionVars false

namespace Verif.Edit

open Verif.Spec Verif.Parser

variable {L T : Type} [DecidableEq T] {eps : T} {ps : List (Production T)}

theorem forest_split {xs : List T} {w : List (Token L T)} {front back : List (Node L T)} {c : Node L T}
    (h : IsForest eps ps xs w (front ++ c :: back)) :
    ∃ xs1 x xs2 w1 w2 w3, xs = xs1 ++ x :: xs2 ∧ w = w1 ++ (w2 ++ w3) ∧ IsForest eps ps xs1 w1 front ∧
      IsTree eps ps x w2 c ∧ IsForest eps ps xs2 w3 back := by
  induction front generalizing xs w with
  | nil =>
    cases h with
    | cons x xs w w' _ _ h1 h2 => exact ⟨[], x, xs, [], w, w', rfl, rfl, .nil, h1, h2⟩
  | cons n front ih =>
    cases h with
    | cons x xs w w' _ _ h1 h2 =>
      obtain ⟨xs1, y, xs2, w1, w2, w3, rfl, rfl, h3, h4, h5⟩ := ih h2
      exact ⟨x :: xs1, y, xs2, w ++ w1, w2, w3, rfl, by simp, .cons _ _ _ _ _ _ h1 h3, h4, h5⟩

theorem forest_leaves (hw : WellFormed eps ps) {xs : List T} {w : List (Token L T)} {ns : List (Node L T)}
    (h : IsForest eps ps xs w ns) : leavesList eps ns = w := by
  induction ns generalizing xs w with
  | nil => cases h; rfl
  | cons n ns ih =>
    cases h with
    | cons x xs w w' _ _ h1 h2 => rw [leavesList, isTree_leaves hw h1, ih h2]

theorem root_type {x : T} {w : List (Token L T)} {n : Node L T} (h : IsTree eps ps x w n) : n.token.tType = x := by
  cases h <;> rfl

/-- Replacing a node of a parse tree by a parse tree of the same symbol gives a parse tree; the tokens around it stay. -/
theorem replaced (hw : WellFormed eps ps) {m m' n n' : Node L T} {u v : List (Token L T)}
    (h : NodeReplaced eps m m' n n' u v) {x : T} {w w' : List (Token L T)} (hn : IsTree eps ps x w n)
    (hm : IsTree eps ps m.token.tType w' m') :
    w = u ++ (leaves eps m ++ v) ∧ IsTree eps ps x (u ++ (w' ++ v)) n' ∧
      IsTree eps ps m.token.tType (leaves eps m) m := by
  induction h generalizing x w with
  | here =>
    rw [root_type hn] at hm ⊢
    have e := isTree_leaves hw hn
    rw [e]
    exact ⟨by simp, by simpa using hm, hn⟩
  | inside front c c' back t u v _ ih =>
    generalize hnode : Node.mk (front ++ c :: back) t = node at hn
    cases hn with
    | leaf t' _ _ =>
      cases front <;> simp at hnode
    | eps =>
      cases front <;> simp at hnode
    | node p w ns hp hf =>
      simp only [Node.mk.injEq] at hnode
      obtain ⟨rfl, rfl⟩ := hnode
      obtain ⟨xs1, y, xs2, w1, w2, w3, e, rfl, h1, h2, h3⟩ := forest_split hf
      obtain ⟨rfl, h5, h6⟩ := ih h2
      rw [forest_leaves hw h1, forest_leaves hw h3]
      refine ⟨by simp, ?_, h6⟩
      have := IsTree.node p (w1 ++ ((u ++ (w' ++ v)) ++ w3)) (front ++ c' :: back) hp (by
        rw [e]
        exact h1.append (.cons _ _ _ _ _ _ h5 h3))
      simpa using this

end Verif.Edit
