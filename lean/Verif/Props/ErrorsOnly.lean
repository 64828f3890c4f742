import Verif.Proof.ErrorsOnly
import Verif.Props.LL1

/-!
# Property C58: with a table without conflicts a solver changes nothing but errors
-/

set_option linter.unusedSectionVars false

namespace Verif.Props

open Verif.Spec Verif.Examples

variable {σ τ L T : Type} [DecidableEq T]

/-- **C58.** Let the table have no conflicts. Compare the parser without a solver with the parser with
any solver, on the same input. They return `Ok` for the same inputs, with the same tree, and then the
solver's state has not changed. If the parser without a solver panics or does not return, so does the
other. So the solver can change only the inputs for which the result is `Err`, and never into `Ok`. -/
theorem C58_only_errors_change (h h' : HashOrder T) (eps init : T) (ps : List (Production T))
    (g g' : Grammar T) (hg : Grammar.new h eps init ps = .ok g)
    (hg' : Grammar.new h' eps init ps = .ok g') (p0 : Parser σ L T) (hp0 : Built h g none p0)
    (hcf : ConflictFree p0.transitions) (sv : Solver τ L T) (p : Parser τ L T)
    (hp : Built h' g' (some sv) p) (tokens : List (Token L T)) (s : σ) (t : τ) :
    (∀ tree t', Parses p tokens t (.ok tree) t' ↔ t' = t ∧ Parses p0 tokens s (.ok tree) s) ∧
    (ParsePanics p0 tokens s → ParsePanics p tokens t) ∧
    (ParseDiverges p0 tokens s → ParseDiverges p tokens t) := by
  have P := (Parser.tableParser_of_built hg hp0).1.toParserOf
  have P' := (Parser.tableParser_of_built hg' hp).1.toParserOf
  have hs := (Parser.tableParser_of_built hg hp0).2
  have A := Parser.agree_of_built hg hg' hp0 hp
  have key := fun n => Parser.parse_onlyBad (tokens := tokens) P P' A hs
    (Parser.conflictFree_length hcf) n s t
  refine ⟨?_, ?_, ?_⟩
  · intro tree t'
    constructor
    · intro hr
      obtain ⟨n, hn⟩ := Parser.parses_at hr
      have hk := key n
      cases h1 : p0.parseFromTokens n tokens s with
      | fuel => rw [h1] at hk; simp only at hk; rw [hk] at hn; cases hn
      | panic e => rw [h1] at hk; simp only at hk; rw [hk] at hn; cases hn
      | ok a =>
        obtain ⟨r, s1⟩ := a
        rw [h1] at hk
        obtain ⟨hgood, hbad⟩ := hk
        by_cases hr' : Parser.GoodResult r
        · have := hgood hr'
          rw [this] at hn
          simp only [Out.ok.injEq, Prod.mk.injEq] at hn
          obtain ⟨rfl, rfl⟩ := hn
          have h2 := Parser.parse_onlyBad (tokens := tokens) P P
            (Parser.agree_of_built hg hg hp0 hp0) hs (Parser.conflictFree_length hcf) n s s
          rw [h1] at h2
          have h2 := h2.1 hr'
          simp only [Out.ok.injEq, Prod.mk.injEq, true_and] at h2
          subst h2
          exact ⟨rfl, Parser.parse_returns h1⟩
        · exact absurd trivial (hbad hr' _ _ hn)
    · rintro ⟨rfl, hr⟩
      obtain ⟨n, hn⟩ := Parser.parses_at hr
      have hk := key n
      rw [hn] at hk
      exact Parser.parse_returns (hk.1 trivial)
  · rintro ⟨N, e, hN⟩
    have hk := key N
    have hN := hN N (Nat.le_refl _)
    simp only at hN
    rw [hN] at hk
    exact Parser.parse_panics hk
  · intro hd n
    have hk := key n
    have hd := hd n
    simp only at hd
    rw [hd] at hk
    exact hk

/-- The hypotheses of C58 are met, and both kinds of input occur: `S → a B c`, `B → b`. The input
`a b c` is accepted by both; `a d c` is an error, which the solver turns into `Fix`. -/
example : ∃ g p0 p tree f fx,
    Grammar.new (HashOrder.id Nat) 0 1 [⟨1, [10, 2, 12]⟩, ⟨2, [11]⟩] = .ok g ∧
    Built (σ := Unit) (L := Unit) (HashOrder.id Nat) g none p0 ∧ ConflictFree p0.transitions ∧
    Built (HashOrder.id Nat) g (some skipOne) p ∧
    Parses p [⟨none, 10⟩, ⟨none, 11⟩, ⟨none, 12⟩] () (.ok tree) () ∧
    Parses p0 [⟨none, 10⟩, ⟨none, 13⟩, ⟨none, 12⟩] () (.err f) () ∧
    Parses p [⟨none, 10⟩, ⟨none, 13⟩, ⟨none, 12⟩] () (.fix fx) () := by
  obtain ⟨g, p0, p, tree, f, fx, hg, hp0, hall, h1, h2, h3, h4⟩ : ∃ g p0 p tree f fx,
      Grammar.new (HashOrder.id Nat) 0 1 [⟨1, [10, 2, 12]⟩, ⟨2, [11]⟩] = .ok g ∧
      Built (σ := Unit) (L := Unit) (HashOrder.id Nat) g none p0 ∧
      (∀ x ∈ [1, 2], ∀ a ∈ [10, 2, 12, 11],
        ((p0.transitions.getProductions x a).getD []).length ≤ 1) ∧
      Built (HashOrder.id Nat) g (some skipOne) p ∧
      Parses p [⟨none, 10⟩, ⟨none, 11⟩, ⟨none, 12⟩] () (.ok tree) () ∧
      Parses p0 [⟨none, 10⟩, ⟨none, 13⟩, ⟨none, 12⟩] () (.err f) () ∧
      Parses p [⟨none, 10⟩, ⟨none, 13⟩, ⟨none, 12⟩] () (.fix fx) () :=
    ⟨_, _, _, _, _, _, rfl, Parser.built_of_eval (n := 10) rfl, by decide,
      Parser.built_of_eval_solver (n := 10) rfl, Parser.parse_returns (n := 20) rfl,
      Parser.parse_returns (n := 20) rfl, Parser.parse_returns (n := 20) rfl⟩
  exact ⟨g, p0, p, tree, f, fx, hg, hp0, conflictFree_of_check hg hp0 hall, h1, h2, h3, h4⟩

end Verif.Props
