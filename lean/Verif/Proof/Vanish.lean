import Verif.Spec.Vanish

/-! # Hidden left recursion: the search has no outcome -/

namespace Verif.Spec

variable {L T : Type} {eps : T} {ps : List (Production T)} {cand : T → T → List (List T)}
  {tokens : List (Token L T)} {t : Token L T} {S : T → Prop}

mutual
theorem choice_loops (heps : ¬ IsNonTerminal ps eps) (hS : Loops eps ps cand t.tType S)
    {x : T} {pos : Nat} {outs : List (List T)} {r : Search (Node L T × Nat × List (List T))} :
    Choice eps ps cand tokens x pos outs r → tokens[pos]? = some t →
    (∀ o os, outs = o :: os → Vanishes eps ps cand t.tType o → ∃ n, r = .found (n, pos, os)) ∧
    (S x → outs ≠ cand x t.tType)
  | .none x pos, ht => by
    refine ⟨by simp, ?_⟩
    intro hx h
    obtain ⟨u, y, v, outs, h1, _⟩ := hS x hx
    rw [h1] at h
    simp at h
  | .here x pos out outs ns q h, ht => by
    have ih := seq_loops heps hS h ht
    constructor
    · intro o os e hv
      simp only [List.cons.injEq] at e
      obtain ⟨rfl, rfl⟩ := e
      obtain ⟨ns', e⟩ := ih.1 hv
      simp only [Search.found.injEq, Prod.mk.injEq] at e
      obtain ⟨_, rfl⟩ := e
      exact ⟨_, rfl⟩
    · intro hx h
      obtain ⟨u, y, v, outs', h1, h2, h3, h4⟩ := hS x hx
      rw [h1] at h
      simp only [List.cons.injEq] at h
      exact ih.2 u y v h.1 h2 h3 h4
  | .next x pos out outs r h _, ht => by
    have ih := seq_loops heps hS h ht
    constructor
    · intro o os e hv
      simp only [List.cons.injEq] at e
      obtain ⟨rfl, rfl⟩ := e
      obtain ⟨ns', e⟩ := ih.1 hv
      simp at e
    · intro hx h
      obtain ⟨u, y, v, outs', h1, h2, h3, h4⟩ := hS x hx
      rw [h1] at h
      simp only [List.cons.injEq] at h
      exact ih.2 u y v h.1 h2 h3 h4
  | .ranOut x pos out outs h, ht => by
    have ih := seq_loops heps hS h ht
    constructor
    · intro o os e hv
      simp only [List.cons.injEq] at e
      obtain ⟨rfl, rfl⟩ := e
      obtain ⟨ns', e⟩ := ih.1 hv
      simp at e
    · intro hx h
      obtain ⟨u, y, v, outs', h1, h2, h3, h4⟩ := hS x hx
      rw [h1] at h
      simp only [List.cons.injEq] at h
      exact ih.2 u y v h.1 h2 h3 h4
theorem seq_loops (heps : ¬ IsNonTerminal ps eps) (hS : Loops eps ps cand t.tType S)
    {xs : List T} {pos : Nat} {r : Search (List (Node L T) × Nat)} :
    Seq eps ps cand tokens xs pos r → tokens[pos]? = some t →
    (Vanishes eps ps cand t.tType xs → ∃ ns, r = .found (ns, pos)) ∧
    (∀ u y v, xs = u ++ y :: v → Vanishes eps ps cand t.tType u → IsNonTerminal ps y → S y → False)
  | .nil pos, ht => by simp
  | .eps xs pos r h, ht => by
    have ih := seq_loops heps hS h ht
    constructor
    · intro hv
      cases hv with
      | eps _ hv =>
        obtain ⟨ns, rfl⟩ := ih.1 hv
        exact ⟨_, rfl⟩
      | nonTerminal _ _ _ _ h => exact absurd h heps
    · intro u y v e hv hy hSy
      cases hv with
      | nil =>
        simp only [List.nil_append, List.cons.injEq] at e
        exact heps (e.1 ▸ hy)
      | eps u hv =>
        simp only [List.cons_append, List.cons.injEq, true_and] at e
        exact ih.2 u y v e hv hy hSy
      | nonTerminal x u out outs hx h1 h2 h3 =>
        simp only [List.cons_append, List.cons.injEq] at e
        exact heps (e.1 ▸ hx)
  | .terminal xs pos t' r hnt hne htp h, ht => by
    constructor
    · intro hv
      generalize he : t'.tType = z at hv hne hnt
      cases hv with
      | eps _ hv => exact absurd rfl hne
      | nonTerminal _ _ _ _ h => exact absurd h hnt
    · intro u y v e hv hy hSy
      cases hv with
      | nil =>
        simp only [List.nil_append, List.cons.injEq] at e
        exact hnt (e.1 ▸ hy)
      | eps u hv =>
        simp only [List.cons_append, List.cons.injEq] at e
        exact hne e.1
      | nonTerminal x u out outs hx h1 h2 h3 =>
        simp only [List.cons_append, List.cons.injEq] at e
        exact hnt (e.1 ▸ hx)
  | .mismatch x xs pos hnt hne _, ht => by
    constructor
    · intro hv
      cases hv with
      | eps _ hv => exact absurd rfl hne
      | nonTerminal _ _ _ _ h => exact absurd h hnt
    · intro u y v e hv hy hSy
      cases hv with
      | nil =>
        simp only [List.nil_append, List.cons.injEq] at e
        exact hnt (e.1 ▸ hy)
      | eps u hv =>
        simp only [List.cons_append, List.cons.injEq] at e
        exact hne e.1
      | nonTerminal x u out outs hx h1 h2 h3 =>
        simp only [List.cons_append, List.cons.injEq] at e
        exact hnt (e.1 ▸ hx)
  | .nonTerminal x xs pos t' r hnt htp h, ht => by
    have ih := retry_loops heps hS h ht
    have htt : t' = t := by rw [htp] at ht; exact Option.some.inj ht
    subst htt
    constructor
    · intro hv
      cases hv with
      | eps _ hv => exact absurd hnt heps
      | nonTerminal _ _ out outs _ h1 h2 h3 => exact ih.1 out outs h1 h2 h3
    · intro u y v e hv hy hSy
      cases hv with
      | nil =>
        simp only [List.nil_append, List.cons.injEq] at e
        obtain ⟨rfl, rfl⟩ := e
        exact ih.2.2 hSy rfl
      | eps u hv =>
        simp only [List.cons_append, List.cons.injEq] at e
        exact heps (e.1 ▸ hnt)
      | nonTerminal x' u out outs hx h1 h2 h3 =>
        simp only [List.cons_append, List.cons.injEq] at e
        obtain ⟨rfl, rfl⟩ := e
        exact ih.2.1 out outs h1 h2 u y v rfl h3 hy hSy
  | .ranOut x xs pos hnt h, ht => by rw [h] at ht; simp at ht
theorem retry_loops (heps : ¬ IsNonTerminal ps eps) (hS : Loops eps ps cand t.tType S)
    {x : T} {xs : List T} {pos : Nat} {outs : List (List T)} {r : Search (List (Node L T) × Nat)} :
    Retry eps ps cand tokens x xs pos outs r → tokens[pos]? = some t →
    (∀ o os, outs = o :: os → Vanishes eps ps cand t.tType o → Vanishes eps ps cand t.tType xs →
      ∃ ns, r = .found (ns, pos)) ∧
    (∀ o os, outs = o :: os → Vanishes eps ps cand t.tType o → ∀ u y v, xs = u ++ y :: v →
      Vanishes eps ps cand t.tType u → IsNonTerminal ps y → S y → False) ∧
    (S x → outs ≠ cand x t.tType)
  | .failed x xs pos outs h, ht => by
    have ih := choice_loops heps hS h ht
    refine ⟨?_, ?_, ih.2⟩
    · intro o os e hv
      obtain ⟨n, h⟩ := ih.1 o os e hv
      simp at h
    · intro o os e hv
      obtain ⟨n, h⟩ := ih.1 o os e hv
      simp at h
  | .ranOut x xs pos outs h, ht => by
    have ih := choice_loops heps hS h ht
    refine ⟨?_, ?_, ih.2⟩
    · intro o os e hv
      obtain ⟨n, h⟩ := ih.1 o os e hv
      simp at h
    · intro o os e hv
      obtain ⟨n, h⟩ := ih.1 o os e hv
      simp at h
  | .found x xs pos outs rest n q q' ns h h', ht => by
    have ih := choice_loops heps hS h ht
    have ih' := seq_loops heps hS h'
    refine ⟨?_, ?_, ih.2⟩
    · intro o os e hv hxs
      obtain ⟨n', h⟩ := ih.1 o os e hv
      simp only [Search.found.injEq, Prod.mk.injEq] at h
      obtain ⟨_, rfl, _⟩ := h
      obtain ⟨ns', h⟩ := (ih' ht).1 hxs
      simp only [Search.found.injEq, Prod.mk.injEq] at h
      obtain ⟨_, rfl⟩ := h
      exact ⟨_, rfl⟩
    · intro o os e hv
      obtain ⟨n', h⟩ := ih.1 o os e hv
      simp only [Search.found.injEq, Prod.mk.injEq] at h
      obtain ⟨_, rfl, _⟩ := h
      exact (ih' ht).2
  | .again x xs pos outs rest n q r h h' _, ht => by
    have ih := choice_loops heps hS h ht
    have ih' := seq_loops heps hS h'
    refine ⟨?_, ?_, ih.2⟩
    · intro o os e hv hxs
      obtain ⟨n', h⟩ := ih.1 o os e hv
      simp only [Search.found.injEq, Prod.mk.injEq] at h
      obtain ⟨_, rfl, _⟩ := h
      obtain ⟨ns', h⟩ := (ih' ht).1 hxs
      simp at h
    · intro o os e hv
      obtain ⟨n', h⟩ := ih.1 o os e hv
      simp only [Search.found.injEq, Prod.mk.injEq] at h
      obtain ⟨_, rfl, _⟩ := h
      exact (ih' ht).2
  | .ranOutAfter x xs pos outs rest n q h h', ht => by
    have ih := choice_loops heps hS h ht
    have ih' := seq_loops heps hS h'
    refine ⟨?_, ?_, ih.2⟩
    · intro o os e hv hxs
      obtain ⟨n', h⟩ := ih.1 o os e hv
      simp only [Search.found.injEq, Prod.mk.injEq] at h
      obtain ⟨_, rfl, _⟩ := h
      obtain ⟨ns', h⟩ := (ih' ht).1 hxs
      simp at h
    · intro o os e hv
      obtain ⟨n', h⟩ := ih.1 o os e hv
      simp only [Search.found.injEq, Prod.mk.injEq] at h
      obtain ⟨_, rfl, _⟩ := h
      exact (ih' ht).2
end

end Verif.Spec
