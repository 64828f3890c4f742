import Verif.Spec.EndMarker
import Verif.Proof.OrderedChoice

/-! # End-marked grammars: the input never runs out -/

set_option linter.unusedSectionVars false

namespace Verif.Parser

open Spec

variable {σ L T : Type} [DecidableEq T] {eps init e : T} {ps : List (Production T)}
  {p : Parser σ L T} {tokens : List (Token L T)}

theorem EndsWith.last {e : T} {tokens : List (Token L T)} (h : EndsWith e tokens) {i : Nat}
    {t : Token L T} (ht : tokens[i]? = some t) : t.tType = e ↔ i + 1 = tokens.length := by
  obtain ⟨ts, u, rfl, hu, hts⟩ := h
  by_cases hi : i < ts.length
  · rw [List.getElem?_append_left hi] at ht
    have := hts t (List.mem_of_getElem? ht)
    simp only [List.length_append, List.length_cons, List.length_nil]
    constructor
    · intro h; exact absurd h this
    · intro h; omega
  · have hi' : i = ts.length := by
      have := (List.getElem?_eq_some_iff.1 ht).1
      simp at this
      omega
    subst hi'
    simp only [List.getElem?_concat_length, Option.some.injEq] at ht
    subst ht
    simp [hu]

/-- What holds of searches in an end-marked grammar that start inside an end-marked input. -/
theorem choice_inside {cand : T → T → List (List T)}
    (hcand : ∀ x a out, out ∈ cand x a → (⟨x, out⟩ : Production T) ∈ ps)
    (hem : EndMarked eps init e ps) (hin : EndsWith e tokens) {x : T} {pos : Nat}
    {outs : List (List T)} {r : Search (Node L T × Nat × List (List T))}
    (h : Choice eps ps cand tokens x pos outs r) (houts : ∀ o ∈ outs, (⟨x, o⟩ : Production T) ∈ ps)
    (hpos : pos < tokens.length) : r ≠ .ranOut := by
  suffices hmain : (∀ o ∈ outs, (⟨x, o⟩ : Production T) ∈ ps) → pos < tokens.length →
      r ≠ .ranOut ∧ (x ≠ init → ∀ n q rest, r = .found (n, q, rest) → q < tokens.length ∧
        ∀ o ∈ rest, o ∈ outs) from (hmain houts hpos).1
  clear houts hpos
  refine Choice.rec (eps := eps) (ps := ps) (cand := cand) (tokens := tokens)
    (motive_1 := fun x pos outs r _ => (∀ o ∈ outs, (⟨x, o⟩ : Production T) ∈ ps) →
      pos < tokens.length → r ≠ .ranOut ∧
      (x ≠ init → ∀ n q rest, r = .found (n, q, rest) → q < tokens.length ∧ ∀ o ∈ rest, o ∈ outs))
    (motive_2 := fun xs pos r _ => ∀ u, (xs = u ∨ xs = u ++ [e]) → e ∉ u → init ∉ u →
      pos < tokens.length → r ≠ .ranOut ∧ (xs = u → ∀ ns q, r = .found (ns, q) → q < tokens.length))
    (motive_3 := fun x xs pos outs r _ => x ≠ init → (∀ o ∈ outs, (⟨x, o⟩ : Production T) ∈ ps) →
      ∀ u, (xs = u ∨ xs = u ++ [e]) → e ∉ u → init ∉ u →
      pos < tokens.length → r ≠ .ranOut ∧ (xs = u → ∀ ns q, r = .found (ns, q) → q < tokens.length))
    ?_ ?_ ?_ ?_ ?_ ?_ ?_ ?_ ?_ ?_ ?_ ?_ ?_ ?_ ?_ h
  -- Choice
  · intro x pos _ _; simp
  · intro x pos out outs ns q _ ih houts hpos
    refine ⟨by simp, ?_⟩
    intro hx n q' rest heq
    have hmem := houts out (by simp)
    simp only [Search.found.injEq, Prod.mk.injEq] at heq
    obtain ⟨_, rfl, rfl⟩ := heq
    exact ⟨(ih out (.inl rfl) (hem.only_there _ hmem hx) (hem.initial_once _ hmem) hpos).2 rfl _ _ rfl,
      fun o ho => by simp [ho]⟩
  · intro x pos out outs r _ _ _ ih houts hpos
    have := ih (fun o ho => houts o (by simp [ho])) hpos
    refine ⟨this.1, fun hx n q rest e' => ?_⟩
    obtain ⟨h1, h2⟩ := this.2 hx n q rest e'
    exact ⟨h1, fun o ho => by simp [h2 o ho]⟩
  · intro x pos out outs _ ih houts hpos
    exfalso
    have hmem := houts out (by simp)
    by_cases hx : x = init
    · obtain ⟨u, hu, he⟩ := hem.initial_ends _ hmem hx
      refine (ih u (.inr hu) he ?_ hpos).1 rfl
      intro hi
      have := hem.initial_once _ hmem
      simp only at hu
      rw [hu] at this
      exact this (by simp [hi])
    · exact (ih out (.inl rfl) (hem.only_there _ hmem hx) (hem.initial_once _ hmem) hpos).1 rfl
  -- Seq
  · intro pos u hu _ _ hpos
    refine ⟨by simp, ?_⟩
    intro _ ns q e'
    simp only [Search.found.injEq, Prod.mk.injEq] at e'
    omega
  · intro xs pos r _ ih u hu he hi hpos
    cases u with
    | nil =>
      rcases hu with hu | hu
      · simp at hu
      · simp at hu; exact absurd hu.1.symm hem.ne_eps
    | cons y u =>
      simp only [List.mem_cons, not_or] at he hi
      have hu' : eps = y ∧ (xs = u ∨ xs = u ++ [e]) := by
        rcases hu with hu | hu <;> simp at hu <;> simp [hu]
      have := ih u hu'.2 he.2 hi.2 hpos
      match r, this with
      | .ranOut, this => exact absurd rfl this.1
      | .failed, _ => simp [Search.cons]
      | .found (ns, q), this =>
        refine ⟨by simp [Search.cons], ?_⟩
        intro h' ns' q' e'
        simp only [Search.cons, Search.found.injEq, Prod.mk.injEq] at e'
        simp only [List.cons.injEq] at h'
        have := this.2 h'.2 ns q rfl
        omega
  · intro xs pos t r hnt hne ht hseq ih u hu he hi hpos
    cases u with
    | nil =>
      rcases hu with hu | hu
      · simp at hu
      · simp only [List.nil_append, List.cons.injEq] at hu
        obtain ⟨_, rfl⟩ := hu
        cases hseq
        simp [Search.cons]
    | cons y u =>
      simp only [List.mem_cons, not_or] at he hi
      have hu' : t.tType = y ∧ (xs = u ∨ xs = u ++ [e]) := by
        rcases hu with hu | hu <;> simp at hu <;> simp [hu]
      have hlast := EndsWith.last hin ht
      have hlt : pos + 1 < tokens.length := by
        have : pos + 1 ≠ tokens.length := fun h' => he.1 (by rw [← hlast.2 h', hu'.1])
        omega
      have := ih u hu'.2 he.2 hi.2 hlt
      match r, this with
      | .ranOut, this => exact absurd rfl this.1
      | .failed, _ => simp [Search.cons]
      | .found (ns, q), this =>
        refine ⟨by simp [Search.cons], ?_⟩
        intro h' ns' q' e'
        simp only [Search.cons, Search.found.injEq, Prod.mk.injEq] at e'
        simp only [List.cons.injEq] at h'
        have := this.2 h'.2 ns q rfl
        omega
  · intro x xs pos _ _ _ u _ _ _ _; simp
  · intro x xs pos t r hx ht _ ih u hu he hi hpos
    cases u with
    | nil =>
      rcases hu with hu | hu
      · simp at hu
      · simp only [List.nil_append, List.cons.injEq] at hu
        rw [hu.1] at hx
        exact absurd hx hem.terminal
    | cons y u =>
      simp only [List.mem_cons, not_or] at he hi
      have hu' : x = y ∧ (xs = u ∨ xs = u ++ [e]) := by
        rcases hu with hu | hu <;> simp at hu <;> simp [hu]
      have := ih (by rw [hu'.1]; exact Ne.symm hi.1) (fun o ho => hcand _ _ _ ho) u hu'.2 he.2 hi.2 hpos
      refine ⟨this.1, fun h' => this.2 ?_⟩
      simp only [List.cons.injEq] at h'
      exact h'.2
  · intro x xs pos hx ht u _ _ _ hpos
    have := List.getElem?_eq_none_iff.1 ht
    omega
  -- Retry
  · intro x xs pos outs _ _ _ _ u _ _ _ _; simp
  · intro x xs pos outs _ ih _ ho u _ _ _ hpos
    exact absurd rfl (ih ho hpos).1
  · intro x xs pos outs rest n q q' ns _ _ ih1 ih2 hx ho u hu he hi hpos
    refine ⟨by simp, ?_⟩
    intro h' ns' q'' e'
    simp only [Search.found.injEq, Prod.mk.injEq] at e'
    have h1 := ((ih1 ho hpos).2 hx _ _ _ rfl).1
    have := (ih2 u hu he hi h1).2 h' _ _ rfl
    omega
  · intro x xs pos outs rest n q r _ _ _ ih1 ih2 ih3 hx ho u hu he hi hpos
    have h1 := ((ih1 ho hpos).2 hx _ _ _ rfl).2
    exact ih3 hx (fun o h' => ho o (h1 o h')) u hu he hi hpos
  · intro x xs pos outs rest n q _ _ ih1 ih2 hx ho u hu he hi hpos
    have h1 := ((ih1 ho hpos).2 hx _ _ _ rfl).1
    exact absurd rfl (ih2 u hu he hi h1).1

/-- No panic for end-marked grammars and inputs, without a solver. -/
theorem no_panic_of_endMarked (P : ParserOf eps init ps p) (hp : p.syntaxErrorSolver = none)
    (hem : EndMarked eps init e ps) (hin : EndsWith e tokens) (s : σ) : ¬ ParsePanics p tokens s := by
  intro hpan
  obtain ⟨ts, u, hts, _⟩ := id hin
  cases tokens with
  | nil => simp at hts
  | cons t ts' =>
    have := (parse_iff_choice P hp t ts' s).2.2.1.1 hpan
    exact choice_inside P.cand hem hin this (fun o ho => P.cand _ _ _ ho) (by simp) rfl

/-- The tree of an end-marked grammar ends with the end marker. -/
theorem tree_ends (hw : WellFormed eps ps) (hem : EndMarked eps init e ps) (hnt : IsNonTerminal ps init)
    {w : List (Token L T)} {n : Node L T} (h : IsTree eps ps init w n) :
    ∃ w' t, w = w' ++ [t] ∧ t.tType = e := by
  generalize hx : init = x at h
  cases h with
  | leaf t h1 => rw [← hx] at h1; exact absurd hnt h1
  | eps =>
    obtain ⟨q, hq, hqi⟩ := hnt
    exact absurd (hqi.trans hx) (hw q hq).1
  | node q w ns hq hf =>
    obtain ⟨u, hu, hn⟩ := hem.initial_ends q hq hx.symm
    rw [hu] at hf
    clear hu hn
    induction u generalizing w ns with
    | nil =>
      cases hf with
      | cons _ _ w1 w2 n ns h1 h2 =>
        cases h2
        generalize hy : e = y at h1
        cases h1 with
        | leaf t => exact ⟨[], t, by simp, rfl⟩
        | eps => exact absurd hy hem.ne_eps
        | node q' _ _ hq' => exact absurd ⟨q', hq', hy.symm⟩ hem.terminal
    | cons y u ih =>
      cases hf with
      | cons _ _ w1 w2 n ns h1 h2 =>
        obtain ⟨w', t, h3, h4⟩ := ih _ h2
        exact ⟨w1 ++ w', t, by simp [h3], h4⟩

theorem take_of_ends {k : Nat} (hin : EndsWith e tokens) {w : List (Token L T)} {t : Token L T}
    (h : tokens.take k = w ++ [t]) (ht : t.tType = e) : tokens.take k = tokens := by
  have hlen : min k tokens.length = w.length + 1 := by
    have := congrArg List.length h
    simpa using this
  have hget : tokens[w.length]? = some t := by
    have : (tokens.take k)[w.length]? = some t := by rw [h]; simp
    rw [List.getElem?_take] at this
    split at this
    · exact this
    · simp at this
  have := (EndsWith.last hin hget).1 ht
  exact List.take_of_length_le (by omega)

end Verif.Parser
