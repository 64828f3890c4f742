import Verif.Proof.Derivation
import Verif.Spec.EndMarker

/-!
# Derivations of words, in one big step
-/

namespace Verif

open Spec

variable {T : Type} [DecidableEq T]

mutual
/-- The symbol `x` derives the word `w` of terminals. -/
inductive Expands (eps : T) (ps : List (Production T)) : T → List T → Prop where
  | leaf (x : T) : ¬ IsNonTerminal ps x → x ≠ eps → Expands eps ps x [x]
  | node (p : Production T) (w : List T) : p ∈ ps → ExpandsAll eps ps (rhs eps p) w → Expands eps ps p.input w
/-- The symbols `xs` derive the word `w`. -/
inductive ExpandsAll (eps : T) (ps : List (Production T)) : List T → List T → Prop where
  | nil : ExpandsAll eps ps [] []
  | cons (x : T) (xs w w' : List T) : Expands eps ps x w → ExpandsAll eps ps xs w' →
      ExpandsAll eps ps (x :: xs) (w ++ w')
end

variable {eps : T} {ps : List (Production T)}

theorem ExpandsAll.append {xs ys w w' : List T} (h : ExpandsAll eps ps xs w) (h' : ExpandsAll eps ps ys w') :
    ExpandsAll eps ps (xs ++ ys) (w ++ w') := by
  induction xs generalizing w with
  | nil => cases h; exact h'
  | cons x xs ih =>
    cases h with
    | cons _ _ u v h1 h2 =>
      rw [List.append_assoc]
      exact .cons x (xs ++ ys) u (v ++ w') h1 (ih h2)

theorem ExpandsAll.split {xs ys w : List T} (h : ExpandsAll eps ps (xs ++ ys) w) :
    ∃ u v, w = u ++ v ∧ ExpandsAll eps ps xs u ∧ ExpandsAll eps ps ys v := by
  induction xs generalizing w with
  | nil => exact ⟨[], w, rfl, .nil, h⟩
  | cons x xs ih =>
    cases h with
    | cons _ _ u v h1 h2 =>
      obtain ⟨u', v', rfl, h3, h4⟩ := ih h2
      exact ⟨u ++ u', v', by rw [List.append_assoc], .cons x xs u u' h1 h3, h4⟩

theorem ExpandsAll.single {x : T} {w : List T} : ExpandsAll eps ps [x] w ↔ Expands eps ps x w := by
  constructor
  · intro h
    cases h with
    | cons _ _ u v h1 h2 => cases h2; simpa using h1
  · intro h
    simpa using ExpandsAll.cons x [] w [] h .nil

theorem Expands.derives {x : T} {w : List T} (h : Expands eps ps x w) : Derives eps ps [x] w := by
  refine Expands.rec (eps := eps) (ps := ps) (motive_1 := fun x w _ => Derives eps ps [x] w)
    (motive_2 := fun xs w _ => Derives eps ps xs w) ?_ ?_ ?_ ?_ h
  · intro x _ _; exact .refl _
  · intro p w hp _ ih; exact (Derives.of_production hp).trans ih
  · exact .refl _
  · intro x xs w w' _ _ ih ih'
    exact Derives.append (a := [x]) ih ih'

theorem expandsAll_refl {w : List T} (hw : ∀ a ∈ w, ¬ IsNonTerminal ps a ∧ a ≠ eps) :
    ExpandsAll eps ps w w := by
  induction w with
  | nil => exact .nil
  | cons a w ih =>
    have := hw a (by simp)
    exact .cons a w [a] w (.leaf a this.1 this.2) (ih fun b hb => hw b (by simp [hb]))

theorem expandsAll_of_derives {u w : List T} (h : Derives eps ps u w)
    (hw : ∀ a ∈ w, ¬ IsNonTerminal ps a ∧ a ≠ eps) : ExpandsAll eps ps u w := by
  induction h with
  | refl _ => exact expandsAll_refl hw
  | step hs _ ih =>
    have ih := ih hw
    cases hs with
    | mk u v p hp =>
      obtain ⟨w1, w2, rfl, h1, h2⟩ := ih.split
      obtain ⟨w3, w4, rfl, h3, h4⟩ := h1.split
      rw [List.append_assoc]
      exact h3.append (.cons p.input v w4 w2 (.node p w4 hp h4) h2)

theorem Expands.terminals {x : T} {w : List T} (h : Expands eps ps x w) :
    ∀ a ∈ w, a = x ∧ ¬ IsNonTerminal ps x ∧ x ≠ eps ∨ IsTerminal ps a ∧ a ≠ eps := by
  refine Expands.rec (eps := eps) (ps := ps)
    (motive_1 := fun x w _ => ∀ a ∈ w, a = x ∧ ¬ IsNonTerminal ps x ∧ x ≠ eps ∨ IsTerminal ps a ∧ a ≠ eps)
    (motive_2 := fun xs w _ => ∀ a ∈ w, a ∈ xs ∧ ¬ IsNonTerminal ps a ∧ a ≠ eps ∨ IsTerminal ps a ∧ a ≠ eps)
    ?_ ?_ ?_ ?_ h
  · intro x hx hne a ha
    rw [List.mem_singleton.1 ha]
    exact .inl ⟨rfl, hx, hne⟩
  · intro p w hp _ ih a ha
    rcases ih a ha with ⟨h1, h2, h3⟩ | h1
    · refine .inr ⟨⟨⟨p, hp, ?_⟩, h2⟩, h3⟩
      unfold rhs at h1
      split at h1
      · simp at h1
      · exact h1
    · exact .inr h1
  · simp
  · intro x xs w w' _ _ ih ih' a ha
    rcases List.mem_append.1 ha with ha | ha
    · rcases ih a ha with ⟨rfl, h2⟩ | h1
      · exact .inl ⟨by simp, h2⟩
      · exact .inr h1
    · rcases ih' a ha with ⟨h1, h2⟩ | h1
      · exact .inl ⟨by simp [h1], h2⟩
      · exact .inr h1

/-- The sentences of a non-terminal. -/
theorem sentence_iff_expands {x : T} (hx : IsNonTerminal ps x) {w : List T} :
    Sentence eps x ps w ↔ Expands eps ps x w := by
  constructor
  · rintro ⟨h1, h2⟩
    exact ExpandsAll.single.1 (expandsAll_of_derives h1 fun a ha => ⟨(h2 a ha).1.2, (h2 a ha).2⟩)
  · intro h
    refine ⟨h.derives, fun a ha => ?_⟩
    rcases h.terminals a ha with ⟨_, h', _⟩ | h'
    · exact absurd hx h'
    · exact h'

end Verif
