import Verif.Proof.Grammar
import Verif.Spec.Examples
import Mathlib.Tactic.Push

/-!
# Properties C01–C03: `ContextFreeGrammar`
-/

set_option linter.unusedSectionVars false

namespace Verif.Props

open Verif.Spec Verif.Examples

variable {T : Type} [DecidableEq T]

/-- **C01.** `ContextFreeGrammar::new` panics exactly when some production has input `eps`, an empty
output, or `eps` together with another symbol in its output — for every hash order. -/
theorem C01_new_panics_iff (h : HashOrder T) (eps init : T) (ps : List (Production T)) :
    (∃ e, Grammar.new h eps init ps = .panic e) ↔
      ∃ p ∈ ps, p.input = eps ∨ p.output = [] ∨ (1 < p.output.length ∧ eps ∈ p.output) := by
  have hok := Grammar.new_eq_ok_iff h eps init ps
  have hf := Grammar.new_not_fuel h eps init ps
  have hwf : ¬ WellFormed eps ps ↔
      ∃ p ∈ ps, p.input = eps ∨ p.output = [] ∨ (1 < p.output.length ∧ eps ∈ p.output) := by
    unfold WellFormed
    push Not
    constructor
    · rintro ⟨p, hp, H⟩
      refine ⟨p, hp, ?_⟩
      by_cases h1 : p.input = eps
      · exact .inl h1
      by_cases h2 : p.output = []
      · exact .inr (.inl h2)
      obtain ⟨h3, h4⟩ := H h1 h2
      have := List.length_pos_iff.2 h2
      exact .inr (.inr ⟨by omega, h3⟩)
    · rintro ⟨p, hp, H⟩
      refine ⟨p, hp, fun h1 h2 => ?_⟩
      rcases H with h' | h' | ⟨h3, h4⟩
      · exact absurd h' h1
      · exact absurd h' h2
      · exact ⟨h4, by omega⟩
  rw [← hwf, ← hok]
  cases hn : Grammar.new h eps init ps with
  | ok g => simp
  | panic e => simp
  | fuel => exact absurd hn hf

/-- **C01**, the other half: in every other case it returns, and the verdict is the same under any
two hash orders. -/
theorem C01_new_returns_iff (h : HashOrder T) (eps init : T) (ps : List (Production T)) :
    (∃ g, Grammar.new h eps init ps = .ok g) ↔
      ¬ ∃ p ∈ ps, p.input = eps ∨ p.output = [] ∨ (1 < p.output.length ∧ eps ∈ p.output) := by
  rw [← C01_new_panics_iff h eps init ps]
  have hf := Grammar.new_not_fuel h eps init ps
  cases hn : Grammar.new h eps init ps with
  | ok g => simp
  | panic e => simp
  | fuel => exact absurd hn hf

example : ∃ g, Grammar.new (HashOrder.id Nat) 0 1 exprPs = .ok g := ⟨_, rfl⟩
example : ∃ g, Grammar.new (HashOrder.rev Nat) 0 1 leftPs = .ok g := ⟨_, rfl⟩
example : Grammar.new (HashOrder.id Nat) 0 1 [⟨1, [2, 0]⟩] = .panic .epsilonMixed := rfl
example : Grammar.new (HashOrder.id Nat) 0 1 [⟨1, [2]⟩, ⟨2, []⟩] = .panic .emptyOutput := rfl
example : Grammar.new (HashOrder.id Nat) 0 1 [⟨1, [0]⟩, ⟨0, [1]⟩] = .panic .epsilonInput := rfl

/-- **C02.** `get_productions(A)` is `Some` of the productions with input `A`, in the order and with
the multiplicity of the argument of `new`, when there is at least one, else `None`. -/
theorem C02_get_productions (h : HashOrder T) (eps init : T) (ps : List (Production T))
    (g : Grammar T) (hg : Grammar.new h eps init ps = .ok g) (A : T) :
    g.getProductions A =
      if ps.filter (fun p => p.input = A) = [] then none
      else some (ps.filter (fun p => p.input = A)) := by
  rw [(Grammar.grammarOf_of_new hg).prods]
  by_cases he : ∃ p ∈ ps, p.input = A
  · rw [if_pos he, if_neg]
    obtain ⟨p, hp, hA⟩ := he
    intro hc
    rw [List.filter_eq_nil_iff] at hc
    exact hc p hp (by simpa using hA)
  · rw [if_neg he, if_pos]
    rw [List.filter_eq_nil_iff]
    intro p hp hA
    exact he ⟨p, hp, by simpa using hA⟩

example : ∃ g, Grammar.new (HashOrder.id Nat) 0 1 leftPs = .ok g ∧
    g.getProductions 1 = some [⟨1, [1, 10]⟩, ⟨1, [2]⟩] ∧ g.getProductions 10 = none :=
  ⟨_, rfl, rfl, rfl⟩

/-- **C03.** Classification of symbols: non-terminals are the inputs, terminals are the output
symbols that are not inputs, the two are disjoint, and the two iterators list exactly them, each
once, in every hash order. -/
theorem C03_classification (h : HashOrder T) (eps init : T) (ps : List (Production T))
    (g : Grammar T) (hg : Grammar.new h eps init ps = .ok g) :
    (∀ x, g.isNonTerminal x = true ↔ ∃ p ∈ ps, p.input = x) ∧
    (∀ x, g.isTerminal x = true ↔ (∃ p ∈ ps, x ∈ p.output) ∧ ¬ ∃ p ∈ ps, p.input = x) ∧
    (∀ x, ¬ (g.isNonTerminal x = true ∧ g.isTerminal x = true)) ∧
    (∀ h' : HashOrder T,
      (g.getNonTerminalSymbols h').Nodup ∧
      (∀ x, x ∈ g.getNonTerminalSymbols h' ↔ g.isNonTerminal x = true) ∧
      (g.getTerminalSymbols h').Nodup ∧
      (∀ x, x ∈ g.getTerminalSymbols h' ↔ g.isTerminal x = true)) := by
  have G := Grammar.grammarOf_of_new hg
  have h1 : ∀ x, g.isNonTerminal x = true ↔ ∃ p ∈ ps, p.input = x := by
    intro x
    simp only [Grammar.isNonTerminal, decide_eq_true_eq, G.mem_nts]
    rfl
  have h2 : ∀ x, g.isTerminal x = true ↔
      (∃ p ∈ ps, x ∈ p.output) ∧ ¬ ∃ p ∈ ps, p.input = x := by
    intro x
    simp only [Grammar.isTerminal, decide_eq_true_eq, G.mem_ts]
    rfl
  refine ⟨h1, h2, ?_, ?_⟩
  · rintro x ⟨ha, hb⟩
    exact ((h2 x).1 hb).2 ((h1 x).1 ha)
  · intro h'
    refine ⟨?_, ?_, ?_, ?_⟩
    · rw [Grammar.getNonTerminalSymbols, h'.nodup_ord]; exact G.nodup_nts
    · intro x; rw [Grammar.getNonTerminalSymbols, h'.mem_ord]; simp [Grammar.isNonTerminal]
    · rw [Grammar.getTerminalSymbols, h'.nodup_ord]; exact G.nodup_ts
    · intro x; rw [Grammar.getTerminalSymbols, h'.mem_ord]; simp [Grammar.isTerminal]

/-- **C03**, last sentence: the initial symbol plays no role in what `new` builds. -/
theorem C03_initial_symbol_irrelevant (h : HashOrder T) (eps init init' : T)
    (ps : List (Production T)) (g : Grammar T) (hg : Grammar.new h eps init ps = .ok g) :
    ∃ g', Grammar.new h eps init' ps = .ok g' ∧
      (∀ x, g'.isNonTerminal x = g.isNonTerminal x) ∧ (∀ x, g'.isTerminal x = g.isTerminal x) ∧
      (∀ x, g'.getProductions x = g.getProductions x) := by
  have G := Grammar.grammarOf_of_new hg
  obtain ⟨g', hg'⟩ := (Grammar.new_eq_ok_iff h eps init' ps).2 G.wf
  have G' := Grammar.grammarOf_of_new hg'
  refine ⟨g', hg', fun x => ?_, fun x => ?_, fun x => ?_⟩
  · rw [Bool.eq_iff_iff]; simp [Grammar.isNonTerminal, G.mem_nts, G'.mem_nts]
  · rw [Bool.eq_iff_iff]; simp [Grammar.isTerminal, G.mem_ts, G'.mem_ts]
  · rw [G.prods, G'.prods]

example : ∃ g, Grammar.new (HashOrder.id Nat) 0 1 exprPs = .ok g ∧
    g.getNonTerminalSymbols (HashOrder.id Nat) = [1, 2, 3, 4, 5, 6] ∧
    g.getTerminalSymbols (HashOrder.id Nat) = [16, 11, 0, 12, 13, 14, 15] := ⟨_, rfl, rfl, rfl⟩

end Verif.Props
