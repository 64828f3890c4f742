import Verif.Spec.StackMachine
import Verif.Spec.Predicted
import Verif.Proof.Leftmost

/-!
# The stack machine of predictive parsing
-/

set_option linter.unusedSectionVars false

namespace Verif.StackMachine

open Verif.Spec Verif.Parser

variable {L T : Type} [DecidableEq T] {eps : T} {ps : List (Production T)} {cand : T → T → List (List T)}

theorem inv_skip (he : ¬ IsNonTerminal ps eps) {st w : List T} (h : Empties eps ps cand (eps :: st) w) :
    Empties eps ps cand st w := by
  cases h with
  | skip _ _ h => exact h
  | read _ _ _ _ hne => exact absurd rfl hne
  | expand _ _ _ _ _ hn => exact absurd hn he

theorem inv_read {a : T} (ha : ¬ IsNonTerminal ps a) (hne : a ≠ eps) {st w : List T}
    (h : Empties eps ps cand (a :: st) w) : ∃ w', w = a :: w' ∧ Empties eps ps cand st w' := by
  cases h with
  | skip => exact absurd rfl hne
  | read _ _ w _ _ h => exact ⟨w, rfl, h⟩
  | expand _ _ _ _ _ hn => exact absurd hn ha

theorem inv_expand (he : ¬ IsNonTerminal ps eps) {x : T} (hx : IsNonTerminal ps x) {st w : List T}
    (h : Empties eps ps cand (x :: st) w) :
    ∃ a w' out, w = a :: w' ∧ out ∈ cand x a ∧ Empties eps ps cand (out ++ st) (a :: w') := by
  cases h with
  | skip => exact absurd hx he
  | read _ _ _ hn => exact absurd hx hn
  | expand _ a out _ w _ ho h => exact ⟨a, w, out, rfl, ho, h⟩

/-! ## The machine and predicted trees -/

mutual
theorem of_predicted {tokens : List (Token L T)} {x : T} {i j : Nat} {n : Node L T}
    (h : Predicted eps ps cand tokens x i n j) {st : List T}
    (hst : Empties eps ps cand st ((tokens.map (·.tType)).drop j)) :
    Empties eps ps cand (x :: st) ((tokens.map (·.tType)).drop i) := by
  cases h with
  | leaf t i h1 h2 h3 =>
    have e : (tokens.map (·.tType)).drop i = t.tType :: (tokens.map (·.tType)).drop (i + 1) := by
      obtain ⟨hi, rfl⟩ := List.getElem?_eq_some_iff.1 h3
      rw [List.drop_eq_getElem_cons (by simpa using hi)]
      simp
    rw [e]
    exact .read _ _ _ h1 h2 hst
  | eps i => exact .skip _ _ hst
  | node x i t out ns j h1 h2 h3 h4 =>
    have := of_predictedSeq h4 hst
    have e : (tokens.map (·.tType)).drop i = t.tType :: (tokens.map (·.tType)).drop (i + 1) := by
      obtain ⟨hi, rfl⟩ := List.getElem?_eq_some_iff.1 h2
      rw [List.drop_eq_getElem_cons (by simpa using hi)]
      simp
    rw [e] at this ⊢
    exact .expand _ _ _ _ _ h1 h3 this
theorem of_predictedSeq {tokens : List (Token L T)} {xs : List T} {i j : Nat} {ns : List (Node L T)}
    (h : PredictedSeq eps ps cand tokens xs i ns j) {st : List T}
    (hst : Empties eps ps cand st ((tokens.map (·.tType)).drop j)) :
    Empties eps ps cand (xs ++ st) ((tokens.map (·.tType)).drop i) := by
  cases h with
  | nil i => exact hst
  | cons x xs i j k n ns h1 h2 => exact of_predicted h1 (of_predictedSeq h2 hst)
end

theorem seq_split {tokens : List (Token L T)} {xs ys : List T} {i k : Nat} {ns : List (Node L T)}
    (h : PredictedSeq eps ps cand tokens (xs ++ ys) i ns k) :
    ∃ ms ns' j, PredictedSeq eps ps cand tokens xs i ms j ∧ PredictedSeq eps ps cand tokens ys j ns' k := by
  induction xs generalizing i ns with
  | nil => exact ⟨[], ns, i, .nil i, h⟩
  | cons x xs ih =>
    cases h with
    | cons _ _ _ j _ n ns h1 h2 =>
      obtain ⟨ms, ns', j', h3, h4⟩ := ih h2
      exact ⟨_, ns', j', .cons _ _ _ _ _ _ _ h1 h3, h4⟩

theorem predicted {tokens : List (Token L T)} {st w : List T} (h : Empties eps ps cand st w) {i : Nat}
    (hw : w = (tokens.map (·.tType)).drop i) : ∃ ns k, PredictedSeq eps ps cand tokens st i ns k := by
  have hget : ∀ {a : T} {w' : List T} {i : Nat}, a :: w' = (tokens.map (·.tType)).drop i →
      ∃ t, tokens[i]? = some t ∧ t.tType = a ∧ w' = (tokens.map (·.tType)).drop (i + 1) := by
    intro a w' i e
    have hi : i < tokens.length := by
      by_contra hc
      rw [List.drop_eq_nil_of_le (by simpa using hc)] at e
      simp at e
    rw [List.drop_eq_getElem_cons (by simpa using hi)] at e
    simp only [List.getElem_map, List.cons.injEq] at e
    exact ⟨tokens[i], by simp [hi], e.1.symm, e.2⟩
  induction h generalizing i with
  | done w => exact ⟨_, _, .nil i⟩
  | skip st w _ ih =>
    obtain ⟨ns, k, h⟩ := ih hw
    exact ⟨_, _, .cons _ _ _ _ _ _ _ (.eps i) h⟩
  | read a st w h1 h2 _ ih =>
    obtain ⟨t, ht, rfl, e⟩ := hget hw
    obtain ⟨ns, k, h⟩ := ih e
    exact ⟨_, _, .cons _ _ _ _ _ _ _ (.leaf t i h1 h2 ht) h⟩
  | expand x a out st w h1 h2 _ ih =>
    obtain ⟨t, ht, rfl, e⟩ := hget hw
    obtain ⟨ns, k, h⟩ := ih hw
    obtain ⟨ms, ns', j, h3, h4⟩ := seq_split h
    exact ⟨_, _, .cons _ _ _ _ _ _ _ (.node x i t out ms j h1 ht h2 h3) h4⟩

theorem empties_iff {tokens : List (Token L T)} {x : T} : Empties eps ps cand [x] (tokens.map (·.tType)) ↔
    ∃ n k, Predicted eps ps cand tokens x 0 n k := by
  constructor
  · intro h
    obtain ⟨ns, k, h⟩ := predicted (L := L) (tokens := tokens) (i := 0) h (by simp)
    cases h with
    | cons _ _ _ j _ n _ h1 _ => exact ⟨n, j, h1⟩
  · rintro ⟨n, k, h⟩
    simpa using of_predicted h (st := []) (.done _)

/-! ## What may still come -/

/-- The machine with a beginning of the input read: it is the same whatever comes behind. -/
theorem advance (hw : WellFormed eps ps) (hc : ∀ x a out, out ∈ cand x a → (⟨x, out⟩ : Production T) ∈ ps)
    (hcf : ∀ x a, (cand x a).length ≤ 1) {st w : List T} (h : Empties eps ps cand st w) {u v : List T}
    (e : w = u ++ v) :
    ∃ st' u1 u2, u = u1 ++ u2 ∧ (u2 = [] ∨ st' = []) ∧ Derives eps ps (strip eps st) (u1 ++ strip eps st') ∧
      ∀ v', Empties eps ps cand st (u ++ v') ↔ Empties eps ps cand st' (u2 ++ v') := by
  have he : ¬ IsNonTerminal ps eps := fun ⟨q, hq, e⟩ => (hw q hq).1 e
  induction h generalizing u with
  | done w => exact ⟨[], [], u, rfl, .inr rfl, .refl _, fun v' => Iff.rfl⟩
  | skip st w _ ih =>
    obtain ⟨st', u1, u2, h1, h2, h3, h4⟩ := ih e
    refine ⟨st', u1, u2, h1, h2, by rwa [strip_cons_self], fun v' => ?_⟩
    rw [← h4]
    exact ⟨inv_skip he, .skip _ _⟩
  | read a st w ha hne _ ih =>
    cases u with
    | nil => exact ⟨a :: st, [], [], rfl, .inl rfl, .refl _, fun v' => Iff.rfl⟩
    | cons b u =>
      simp only [List.cons_append, List.cons.injEq] at e
      obtain ⟨rfl, e⟩ := e
      obtain ⟨st', u1, u2, rfl, h2, h3, h4⟩ := ih e
      refine ⟨st', a :: u1, u2, rfl, h2, ?_, fun v' => ?_⟩
      · rw [strip_cons_ne hne]
        simpa using h3.context [a] []
      · rw [← h4]
        constructor
        · intro h
          obtain ⟨w', e, h⟩ := inv_read ha hne h
          cases e
          exact h
        · exact .read _ _ _ ha hne
  | expand x a out st w hx ho _ ih =>
    cases u with
    | nil => exact ⟨x :: st, [], [], rfl, .inl rfl, .refl _, fun v' => Iff.rfl⟩
    | cons b u =>
      obtain ⟨st', u1, u2, h1, h2, h3, h4⟩ := ih e
      simp only [List.cons_append, List.cons.injEq] at e
      obtain ⟨rfl, e⟩ := e
      refine ⟨st', u1, u2, h1, h2, ?_, fun v' => ?_⟩
      · have hq := hc x a out ho
        rw [strip_cons_ne (hw _ hq).1]
        rw [strip_append, show strip eps out = rhs eps ⟨x, out⟩ from strip_output hw hq] at h3
        have := (Derives.of_production (eps := eps) hq).context [] (strip eps st)
        simp only [List.nil_append, List.cons_append] at this
        exact this.trans h3
      · rw [← h4]
        constructor
        · intro h
          obtain ⟨a', w', out', e, ho', h⟩ := inv_expand he hx h
          simp only [List.cons_append, List.cons.injEq] at e
          obtain ⟨rfl, rfl⟩ := e
          have : out' = out := by
            have := hcf x a
            match hl : cand x a, this with
            | [], _ => rw [hl] at ho; simp at ho
            | [y], _ => rw [hl] at ho ho'; simp at ho ho'; rw [ho, ho']
            | _ :: _ :: _, h => simp at h
          subst this
          exact h
        · exact .expand _ _ _ _ _ hx ho

/-- What the machine reads is derived from the stack. -/
theorem derives (hw : WellFormed eps ps) (hc : ∀ x a out, out ∈ cand x a → (⟨x, out⟩ : Production T) ∈ ps)
    {st w : List T} (h : Empties eps ps cand st w) : ∃ u v, w = u ++ v ∧ Derives eps ps (strip eps st) u := by
  induction h with
  | done w => exact ⟨[], w, rfl, .refl _⟩
  | skip st w _ ih => rwa [strip_cons_self]
  | read a st w ha hne _ ih =>
    obtain ⟨u, v, rfl, h⟩ := ih
    refine ⟨a :: u, v, rfl, ?_⟩
    rw [strip_cons_ne hne]
    simpa using h.context [a] []
  | expand x a out st w hx ho _ ih =>
    obtain ⟨u, v, e, h⟩ := ih
    refine ⟨u, v, e, ?_⟩
    have hq := hc x a out ho
    rw [strip_cons_ne (hw _ hq).1]
    rw [strip_append, show strip eps out = rhs eps ⟨x, out⟩ from strip_output hw hq] at h
    have := (Derives.of_production (eps := eps) hq).context [] (strip eps st)
    simp only [List.nil_append, List.cons_append] at this
    exact this.trans h

end Verif.StackMachine
