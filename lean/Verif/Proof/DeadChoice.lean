import Verif.Spec.OrderedChoice
import Verif.Spec.Predicted
import Verif.Spec.DeadChoice

/-! # Candidates behind an empty one are not used at the end of productions -/

namespace Verif.Dead

open Verif.Spec

variable {L T : Type} [DecidableEq T] {eps X : T} {ps : List (Production T)} {cand : T → T → List (List T)}
  {tokens : List (Token L T)}

theorem not_seq_nil_failed {pos : Nat} {r : Search (List (Node L T) × Nat)} (h : Seq eps ps cand tokens [] pos r)
    (e : r = .failed) : False := by
  cases h
  cases e

theorem not_seq_eps_failed (hn : ¬ IsNonTerminal ps eps) {pos : Nat} {xs : List T} {r : Search (List (Node L T) × Nat)}
    (h : Seq eps ps cand tokens xs pos r) (hx : xs = [eps]) (e : r = .failed) : False := by
  cases h with
  | nil => cases hx
  | eps xs pos r h1 =>
    simp only [List.cons.injEq, true_and] at hx
    subst hx
    cases h1
    cases e
  | terminal xs pos t r h1 h2 =>
    simp only [List.cons.injEq] at hx
    exact h2 hx.1
  | mismatch x xs pos h1 h2 =>
    simp only [List.cons.injEq] at hx
    exact h2 hx.1
  | nonTerminal x xs pos t r h1 =>
    simp only [List.cons.injEq] at hx
    exact hn (hx.1 ▸ h1)
  | ranOut x xs pos h1 =>
    simp only [List.cons.injEq] at hx
    exact hn (hx.1 ▸ h1)

/-- What is used of the candidates given to a search. -/
def Given (eps X : T) (cand : T → T → List (List T)) (tokens : List (Token L T)) (x : T) (pos : Nat)
    (outs : List (List T)) : Prop :=
  ∃ t, tokens[pos]? = some t ∧ (∀ o ∈ outs, o ∈ cand x t.tType) ∧
    (x = X → (∃ more, cand X t.tType = [eps] :: more) → outs = cand X t.tType)

/-- The symbol occurs at the end only. -/
def AtEnd (X : T) (xs : List T) : Prop := ∀ u v, xs = u ++ X :: v → v = []

theorem AtEnd.tail {x : T} {xs : List T} (h : AtEnd X (x :: xs)) : AtEnd X xs :=
  fun u v e => h (x :: u) v (by rw [e]; rfl)

theorem choice_dead (hn : ¬ IsNonTerminal ps eps) (hend : ∀ x a, ∀ o ∈ cand x a, AtEnd X o) {x : T} {pos : Nat}
    {outs : List (List T)} {r : Search (Node L T × Nat × List (List T))} (hx : IsNonTerminal ps x)
    (h : Choice eps ps cand tokens x pos outs r) (hg : Given eps X cand tokens x pos outs) :
    ∀ n q rest, r = .found (n, q, rest) → Predicted eps ps (emptyFirst eps X cand) tokens x pos n q := by
  have key : IsNonTerminal ps x → Given eps X cand tokens x pos outs → ∀ n q rest, r = .found (n, q, rest) →
      Predicted eps ps (emptyFirst eps X cand) tokens x pos n q ∧ ∀ o ∈ rest, o ∈ outs := by
    refine Choice.rec (eps := eps) (ps := ps) (cand := cand) (tokens := tokens)
      (motive_1 := fun x pos outs r _ => IsNonTerminal ps x → Given eps X cand tokens x pos outs →
        ∀ n q rest, r = .found (n, q, rest) →
          Predicted eps ps (emptyFirst eps X cand) tokens x pos n q ∧ ∀ o ∈ rest, o ∈ outs)
      (motive_2 := fun xs pos r _ => AtEnd X xs → ∀ ns q, r = .found (ns, q) →
        PredictedSeq eps ps (emptyFirst eps X cand) tokens xs pos ns q)
      (motive_3 := fun x xs pos outs r _ => IsNonTerminal ps x → Given eps X cand tokens x pos outs →
        AtEnd X (x :: xs) → ∀ ns q, r = .found (ns, q) →
          PredictedSeq eps ps (emptyFirst eps X cand) tokens (x :: xs) pos ns q)
      ?_ ?_ ?_ ?_ ?_ ?_ ?_ ?_ ?_ ?_ ?_ ?_ ?_ ?_ ?_ h
    · intro x pos _ _ n q rest e; cases e
    · rintro x pos out outs ns q hs ih hx ⟨t, ht, hsub, hX⟩ n q' rest e
      simp only [Search.found.injEq, Prod.mk.injEq] at e
      obtain ⟨rfl, rfl, rfl⟩ := e
      refine ⟨.node x pos t out ns _ hx ht ?_ (ih (hend _ _ out (hsub out (by simp))) ns _ rfl), fun o ho => by simp [ho]⟩
      unfold emptyFirst
      split
      · rename_i hc
        obtain ⟨rfl, hm⟩ := hc
        obtain ⟨more, hm⟩ : ∃ more, cand x t.tType = [eps] :: more := by
          cases hl : cand x t.tType with
          | nil => rw [hl] at hm; simp at hm
          | cons a more => rw [hl] at hm; simp at hm; exact ⟨more, by rw [hm]⟩
        have := hX rfl ⟨more, hm⟩
        rw [hm] at this
        simp only [List.cons.injEq] at this
        simp [this.1]
      · exact hsub out (by simp)
    · rintro x pos out outs r hs hc _ ih hx ⟨t, ht, hsub, hX⟩ n q rest e
      have := ih hx ⟨t, ht, fun o ho => hsub o (by simp [ho]), ?_⟩ n q rest e
      · exact ⟨this.1, fun o ho => by simp [this.2 o ho]⟩
      · rintro hxX ⟨more, hm⟩
        have h1 := hX hxX ⟨more, hm⟩
        rw [hm] at h1
        simp only [List.cons.injEq] at h1
        exact (not_seq_eps_failed hn hs h1.1 rfl).elim
    · intro x pos out outs _ _ _ _ n q rest e; cases e
    · intro pos _ ns q e
      simp only [Search.found.injEq, Prod.mk.injEq] at e
      obtain ⟨rfl, rfl⟩ := e
      exact .nil _
    · intro xs pos r _ ih hA ns q e
      match r, ih, e with
      | .found (ms, q'), ih, e =>
        simp only [Search.cons, Search.found.injEq, Prod.mk.injEq] at e
        obtain ⟨rfl, rfl⟩ := e
        exact .cons _ _ _ _ _ _ _ (.eps _) (ih hA.tail _ _ rfl)
    · intro xs pos t r h1 h2 h3 _ ih hA ns q e
      match r, ih, e with
      | .found (ms, q'), ih, e =>
        simp only [Search.cons, Search.found.injEq, Prod.mk.injEq] at e
        obtain ⟨rfl, rfl⟩ := e
        exact .cons _ _ _ _ _ _ _ (.leaf t pos h1 h2 h3) (ih hA.tail _ _ rfl)
    · intro x xs pos _ _ _ _ ns q e; cases e
    · intro x xs pos t r hx ht _ ih hA ns q e
      exact ih hx ⟨t, ht, fun _ ho => ho, fun hxX _ => by rw [hxX]⟩ hA ns q e
    · intro x xs pos _ _ _ ns q e; cases e
    · intro x xs pos outs _ _ _ _ _ ns q e; cases e
    · intro x xs pos outs _ _ _ _ _ ns q e; cases e
    · intro x xs pos outs rest n q q' ns _ _ ih1 ih2 hx hG hA ms q2 e
      simp only [Search.found.injEq, Prod.mk.injEq] at e
      obtain ⟨rfl, rfl⟩ := e
      exact .cons _ _ _ _ _ _ _ (ih1 hx hG n q rest rfl).1 (ih2 hA.tail _ _ rfl)
    · rintro x xs pos outs rest n q r hc hs _ ih1 _ ih3 hx ⟨t, ht, hsub, hX⟩ hA ns q' e
      have h1 := ih1 hx ⟨t, ht, hsub, hX⟩ n q rest rfl
      refine ih3 hx ⟨t, ht, fun o ho => hsub o (h1.2 o ho), ?_⟩ hA ns q' e
      rintro rfl -
      have := hA [] xs rfl
      subst this
      exact (not_seq_nil_failed hs rfl).elim
    · intro x xs pos outs rest n q _ _ _ _ _ _ _ ns q' e; cases e
  intro n q rest e
  exact (key hx hg n q rest e).1

end Verif.Dead
