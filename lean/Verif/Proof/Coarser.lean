import Verif.Spec.Coarser
import Verif.Proof.Rename
import Verif.Proof.LL1
import Verif.Proof.EndMarker
import Verif.Spec.LL1

/-! # Merging symbols -/

set_option linter.unusedSectionVars false

namespace Verif.Coarse

open Verif.Spec

variable {L T T' : Type} [DecidableEq T] [DecidableEq T'] {f : T → T'} {eps : T} {ps : List (Production T)}
  {eps' : T'} {ps' : List (Production T')} (C : Coarser f eps ps eps' ps')

include C

theorem nt {x : T} : IsNonTerminal ps' (f x) ↔ IsNonTerminal ps x := by
  refine ⟨C.terminals x, ?_⟩
  rintro ⟨p, hp, rfl⟩
  exact ⟨_, C.productions p hp, rfl⟩

theorem terminal {x : T} (h : IsTerminal ps x) : IsTerminal ps' (f x) := by
  obtain ⟨⟨p, hp, hx⟩, hn⟩ := h
  exact ⟨⟨_, C.productions p hp, List.mem_map_of_mem hx⟩, fun hc => hn (C.terminals _ hc)⟩

theorem ne_eps {x : T} (h : x ≠ eps) : f x ≠ eps' := fun e => h ((C.eps x).1 e)

theorem rhs_eq (p : Production T) : rhs eps' (renProduction f p) = (rhs eps p).map f := by
  unfold rhs renProduction
  by_cases h : p.output = [eps]
  · rw [if_pos h, if_pos (by simp [h, (C.eps eps).2 rfl])]; rfl
  · rw [if_neg h, if_neg]
    intro h'
    apply h
    match hp : p.output, h' with
    | [y], h' => simp only [List.map_cons, List.map_nil, List.cons.injEq, and_true] at h'; rw [(C.eps y).1 h']
    | [], h' => simp at h'
    | _ :: _ :: _, h' => simp at h'

theorem step {a b : List T} (h : Step eps ps a b) : Step eps' ps' (a.map f) (b.map f) := by
  obtain ⟨u, v, p, hp⟩ := h
  have := Step.mk (eps := eps') (u.map f) (v.map f) _ (C.productions p hp)
  rw [rhs_eq C] at this
  simpa [renProduction] using this

theorem derives {a b : List T} (h : Derives eps ps a b) : Derives eps' ps' (a.map f) (b.map f) := by
  induction h with
  | refl => exact .refl _
  | step s _ ih => exact .step (step C s) ih

theorem nullable {x : T} (h : Nullable eps ps x) : Nullable eps' ps' (f x) := derives C h

theorem canStart {x a : T} (h : CanStart eps ps x a) : CanStart eps' ps' (f x) (f a) := by
  obtain ⟨h1, h2, v, h3⟩ := h
  exact ⟨terminal C h1, ne_eps C h2, v.map f, derives C h3⟩

theorem strNullable {l : List T} (h : StrNullable eps ps l) : StrNullable eps' ps' (l.map f) := by
  unfold StrNullable
  rw [List.forall_mem_map]
  exact fun x hx => nullable C (h x hx)

theorem strFirst {l : List T} {a : T} (h : StrFirst eps ps l a) : StrFirst eps' ps' (l.map f) (f a) := by
  obtain ⟨w, y, v, rfl, hw, hy⟩ := h
  exact ⟨w.map f, f y, v.map f, by simp, strNullable C hw, canStart C hy⟩

theorem canFollow {x a : T} (h : CanFollow eps ps x a) : CanFollow eps' ps' (f x) (f a) := by
  obtain ⟨h1, h2, n, u, v, hn, hd⟩ := h
  refine ⟨terminal C h1, ne_eps C h2, f n, u.map f, v.map f, (nt C).2 hn, ?_⟩
  simpa using derives C hd

theorem noAdjacent (h : NoAdjacentRepeat ps') : NoAdjacentRepeat ps := by
  intro p hp u x v e hx
  exact h _ (C.productions p hp) (u.map f) (f x) (v.map f) (by simp [renProduction, e]) ((nt C).2 hx)

theorem notLeftRecursive (h : NotLeftRecursive eps' ps') : NotLeftRecursive eps ps := by
  rintro x v ⟨b, h1, h2⟩
  refine h (f x) (v.map f) ⟨b.map f, ?_, ?_⟩
  · simpa using step C h1
  · simpa using derives C h2

theorem wellFormed (h : WellFormed eps' ps') : WellFormed eps ps := by
  intro p hp
  obtain ⟨h1, h2, h3⟩ := h _ (C.productions p hp)
  refine ⟨fun e => h1 ((C.eps _).2 e), fun e => h2 (by simp [renProduction, e]), fun he => ?_⟩
  have := h3 (by rw [← (C.eps eps).2 rfl]; exact List.mem_map_of_mem he)
  simpa [renProduction] using this

theorem followRule (hadj : NoAdjacentRepeat ps') {x a : T} (h : FollowRule eps ps x a) :
    FollowRule eps' ps' (f x) (f a) := by
  induction h with
  | first hp hr hx ht ha =>
    rename_i p u t x a
    refine .first (C.productions p hp) (u := u.map f) (t := t.map f) (by rw [rhs_eq C, hr]; simp) ((nt C).2 hx) ?_
      (strFirst C ha)
    cases t with
    | nil => simp
    | cons y t =>
      intro e
      simp only [List.map_cons, List.head?_cons, Option.some.injEq] at e
      have ho : p.output = u ++ x :: y :: t := by
        unfold rhs at hr
        split at hr
        · simp at hr
        · exact hr
      refine hadj _ (C.productions p hp) (u.map f) (f x) (t.map f) ?_ ((nt C).2 hx)
      simp [renProduction, ho, e]
  | last hp hr hx ht _ ih =>
    rename_i p u t x a _
    exact .last (C.productions p hp) (u := u.map f) (t := t.map f) (by rw [rhs_eq C, hr]; simp) ((nt C).2 hx)
      (strNullable C ht) ih

theorem lead (hadj : NoAdjacentRepeat ps') {p : Production T} {a : T} (h : Transitions.Lead eps ps p a) :
    Transitions.Lead eps' ps' (renProduction f p) (f a) := by
  rcases h with ⟨h1, h2⟩ | ⟨x, t, h1, h2⟩
  · exact .inl ⟨by rw [rhs_eq C, h1]; rfl, followRule C hadj h2⟩
  · refine .inr ⟨f x, t.map f, by rw [rhs_eq C, h1]; rfl, ?_⟩
    rcases h2 with h2 | ⟨h2, h3⟩
    · exact .inl (canStart C h2)
    · exact .inr ⟨nullable C h2, followRule C hadj h3⟩

theorem predicts {p : Production T} {a : T} (h : Predicts eps ps p a) : Predicts eps' ps' (renProduction f p) (f a) := by
  obtain ⟨h1, h2, h3⟩ := h
  refine ⟨terminal C h1, ne_eps C h2, ?_⟩
  rw [rhs_eq C]
  rcases h3 with ⟨v, h3⟩ | ⟨h3, h4⟩
  · exact .inl ⟨v.map f, by simpa using derives C h3⟩
  · exact .inr ⟨by simpa using derives C h3, canFollow C h4⟩

theorem cell_length (hsub : (ps.map (renProduction f)).Sublist ps') (hadj : NoAdjacentRepeat ps')
    {S : Production T → List T} {t : Transitions T} {S' : Production T' → List T'} {t' : Transitions T'}
    (hS : Transitions.TableOf ps S t) (hL : ∀ p ∈ ps, ∀ a, a ∈ S p ↔ Transitions.Lead eps ps p a)
    (hS' : Transitions.TableOf ps' S' t') (hL' : ∀ p ∈ ps', ∀ a, a ∈ S' p ↔ Transitions.Lead eps' ps' p a)
    (hcf : ConflictFree t') : ConflictFree t := by
  intro A a l hl
  by_cases hc : IsNonTerminal ps A ∧ IsTerminal ps a
  · rw [hS.some A a hc.1 hc.2] at hl
    cases hl
    have h1 := hcf (f A) (f a) _ (hS'.some _ _ ((nt C).2 hc.1) (terminal C hc.2))
    refine Nat.le_trans ?_ h1
    have h2 := (hsub.filter (fun q => decide (q.input = f A ∧ f a ∈ S' q))).length_le
    refine Nat.le_trans ?_ h2
    rw [List.filter_map, List.length_map]
    have : (ps.filter fun q => decide (q.input = A ∧ a ∈ S q)).Sublist
        (ps.filter ((fun q => decide (q.input = f A ∧ f a ∈ S' q)) ∘ renProduction f)) := by
      have e : (ps.filter fun q => decide (q.input = A ∧ a ∈ S q)) =
          (ps.filter ((fun q => decide (q.input = f A ∧ f a ∈ S' q)) ∘ renProduction f)).filter
            fun q => decide (q.input = A ∧ a ∈ S q) := by
        rw [List.filter_filter]
        apply List.filter_congr
        intro q hq
        rw [Bool.eq_iff_iff]
        simp only [Function.comp_apply, decide_eq_true_eq, Bool.and_eq_true]
        refine ⟨fun h => ⟨h, ?_, ?_⟩, fun h => h.1⟩
        · rw [← h.1]; rfl
        · exact (hL' _ (C.productions q hq) _).2 (lead C hadj ((hL q hq a).1 h.2))
      rw [e]
      exact List.filter_sublist
    exact this.length_le
  · rw [hS.none A a hc] at hl
    cases hl

mutual
theorem tree {x : T} {w : List (Token L T)} {n : Node L T} (h : IsTree eps ps x w n) :
    IsTree eps' ps' (f x) (w.map (renToken f)) (renNode f n) := by
  cases h with
  | leaf t h1 h2 =>
    simp only [List.map_cons, List.map_nil, renNode, renNodes]
    exact .leaf (renToken f t) (fun hc => h1 (C.terminals _ hc)) (ne_eps C h2)
  | eps =>
    simp only [List.map_nil, renNode, renNodes, renToken]
    rw [(C.eps eps).2 rfl]
    exact .eps
  | node p w ns hp hf =>
    simp only [renNode, renToken]
    exact .node (renProduction f p) _ _ (C.productions p hp) (forest hf)
theorem forest {xs : List T} {w : List (Token L T)} {ns : List (Node L T)} (h : IsForest eps ps xs w ns) :
    IsForest eps' ps' (xs.map f) (w.map (renToken f)) (renNodes f ns) := by
  cases h with
  | nil => exact .nil
  | cons x xs w w' n ns h1 h2 =>
    rw [List.map_append]
    exact .cons _ _ _ _ _ _ (tree h1) (forest h2)
end

end Verif.Coarse
