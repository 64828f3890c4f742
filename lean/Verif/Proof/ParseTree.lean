import Verif.Spec.ParseTree
import Verif.Proof.Derivation

/-! # Lemmas about parse trees -/

set_option linter.unusedSectionVars false

namespace Verif.Spec

variable {L T : Type} [DecidableEq T] {eps : T} {ps : List (Production T)}

theorem IsTree.label {x : T} {w : List (Token L T)} {n : Node L T} (h : IsTree eps ps x w n) :
    n.token.tType = x := by
  cases h <;> rfl

theorem IsForest.append {xs ys : List T} {w w' : List (Token L T)} {ns ms : List (Node L T)}
    (h : IsForest eps ps xs w ns) (h' : IsForest eps ps ys w' ms) :
    IsForest eps ps (xs ++ ys) (w ++ w') (ns ++ ms) := by
  induction xs generalizing w ns with
  | nil => cases h; simpa using h'
  | cons x xs ih =>
    cases h with
    | cons _ _ w1 w2 n ns h1 h2 =>
      have := IsForest.cons x (xs ++ ys) w1 (w2 ++ w') n _ h1 (ih h2)
      simpa [List.append_assoc] using this

theorem IsForest.single {x : T} {w : List (Token L T)} {n : Node L T} (h : IsTree eps ps x w n) :
    IsForest eps ps [x] w [n] := by
  have := IsForest.cons x [] w [] n [] h .nil
  simpa using this

theorem isTree_derives (hw : WellFormed eps ps) {x : T} {w : List (Token L T)} {n : Node L T}
    (h : IsTree eps ps x w n) :
    (x = eps ∧ w = []) ∨ (x ≠ eps ∧ Derives eps ps [x] (w.map (·.tType))) := by
  refine IsTree.rec (eps := eps) (ps := ps)
    (motive_1 := fun x w n _ => (x = eps ∧ w = []) ∨ (x ≠ eps ∧ Derives eps ps [x] (w.map (·.tType))))
    (motive_2 := fun xs w ns _ => (xs = [eps] → w = []) ∧
      (eps ∉ xs → Derives eps ps xs (w.map (·.tType)))) ?_ ?_ ?_ ?_ ?_ h
  · intro t _ hne
    exact .inr ⟨hne, .refl _⟩
  · exact .inl ⟨rfl, rfl⟩
  · intro p w ns hp _ ih
    refine .inr ⟨(hw p hp).1, ?_⟩
    have hd := Derives.of_production (eps := eps) hp
    unfold rhs at hd
    split at hd
    · rename_i ho
      rw [ih.1 ho]; exact hd
    · rename_i ho
      refine hd.trans (ih.2 ?_)
      intro hm
      have := (hw p hp).2.2 hm
      obtain ⟨y, hy⟩ := List.length_eq_one_iff.1 this
      rw [hy] at hm ho
      simp at hm
      simp [hm] at ho
  · exact ⟨fun _ => rfl, fun _ => .refl _⟩
  · intro x xs w w' n ns _ h2 ih1 ih2
    constructor
    · intro e
      simp only [List.cons.injEq] at e
      obtain ⟨rfl, rfl⟩ := e
      rcases ih1 with ⟨_, rfl⟩ | ⟨h', _⟩
      · cases h2; rfl
      · exact absurd rfl h'
    · intro hn
      simp only [List.mem_cons, not_or] at hn
      rcases ih1 with ⟨h', _⟩ | ⟨_, h'⟩
      · exact absurd h'.symm hn.1
      · rw [List.map_append]
        exact Derives.append (a := [x]) h' (ih2.2 hn.2)

/-- A tree of a non-terminal witnesses a derivation of its word. -/
theorem IsTree.derives (hw : WellFormed eps ps) {x : T} {w : List (Token L T)} {n : Node L T}
    (h : IsTree eps ps x w n) (hx : x ≠ eps) : Derives eps ps [x] (w.map (·.tType)) := by
  rcases isTree_derives hw h with ⟨h', _⟩ | ⟨_, h'⟩
  · exact absurd h' hx
  · exact h'

theorem isTree_leaves (hw : WellFormed eps ps) {x : T} {w : List (Token L T)} {n : Node L T}
    (h : IsTree eps ps x w n) : leaves eps n = w := by
  refine IsTree.rec (eps := eps) (ps := ps)
    (motive_1 := fun x w n _ => leaves eps n = w)
    (motive_2 := fun xs w ns _ => leavesList eps ns = w ∧ (xs ≠ [] → ns ≠ [])) ?_ ?_ ?_ ?_ ?_ h
  · intro t _ hne
    simp [leaves, hne]
  · simp [leaves]
  · intro p w ns hp _ ih
    have := ih.2 (hw p hp).2.1
    obtain ⟨c, cs, rfl⟩ := List.exists_cons_of_ne_nil this
    rw [← ih.1]
    simp [leaves, leavesList]
  · simp [leavesList]
  · intro x xs w w' n ns _ _ ih1 ih2
    simp [leavesList, ih1, ih2.1]

end Verif.Spec
