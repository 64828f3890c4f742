import Verif.Proof.ReportChain
import Verif.Props.CallOrder

/-!
# Property C78: what a solver that declines is shown
-/

set_option linter.unusedSectionVars false

namespace Verif.Props

open Verif.Spec Verif.Examples

variable {σ L T : Type} [DecidableEq T]

/-- **C78.** Let the table have no conflicts and log the calls of the solver. If the result is `Err` and
the solver returned no fix, then the failed productions it was asked about (not counting calls with an
empty list) are exactly those of the report, each once, from the innermost to the outermost. -/
theorem C78_shown_failures (h : HashOrder T) (eps init : T) (ps : List (Production T))
    (g : Grammar T) (hg : Grammar.new h eps init ps = .ok g) (sv : Solver σ L T)
    (p : Parser (σ × List (LoggedCall L T)) L T) (hp : Built h g (some (logCalls sv)) p)
    (hcf : ConflictFree p.transitions) (tokens : List (Token L T)) (s s' : σ) (f : FailedSymbol L T)
    (log : List (LoggedCall L T)) (hr : Parses p tokens (s, []) (.err f) (s', log))
    (hno : ∀ c ∈ log, c.fixed = false) :
    (log.filter fun c => !c.failed.isEmpty).map (·.failed) = reportChain f := by
  cases tokens with
  | nil =>
    obtain ⟨n, hn⟩ := Parser.parses_at hr
    simp [Parser.parseFromTokens] at hn
  | cons t ts =>
    obtain ⟨o, ho, hres⟩ := ((C38_exact_result h eps init ps g hg _ p hp t ts (s, [])).1 _ _).1 hr
    have hlen : ∀ x a, (candidates p.transitions x a).length ≤ 1 := by
      intro x a
      rw [← Parser.getTokenProductions_eq]
      exact Parser.conflictFree_length hcf x a
    have := Parser.Recovery.choice_says hlen ho (hlen _ _)
    match o, this, hres with
    | .found (.node _ _ _) _, _, hres => simp [Recovery.result] at hres
    | .found (.fixed _ _) _, _, hres => simp [Recovery.result] at hres
    | .failed _ _, ⟨new, h1, h2⟩, hres =>
      simp only [Recovery.result, Option.some.injEq, Prod.mk.injEq, ParseResult.err.injEq] at hres
      obtain ⟨rfl, rfl⟩ := hres
      simp only [List.nil_append] at h1
      subst h1
      exact h2 hno
    | .panicked, _, hres => simp [Recovery.result] at hres

/-- The hypotheses are met, by a run with three calls, two of them with a failed production: `S → a B`,
`B → b C`, `C → c` on `a b d`. -/
example : ∃ g p f fpB fpS,
    Grammar.new (HashOrder.id Nat) 0 1 [⟨1, [10, 2]⟩, ⟨2, [11, 3]⟩, ⟨3, [12]⟩] = .ok g ∧
    Built (HashOrder.id Nat) g (some (logCalls decliner)) p ∧ ConflictFree p.transitions ∧
    Parses p [⟨none, 10⟩, ⟨none, 11⟩, ⟨none, 13⟩] ((), []) (.err f)
      ((), [⟨2, [], false⟩, ⟨1, [fpB], false⟩, ⟨0, [fpS], false⟩]) ∧
    reportChain f = [[fpB], [fpS]] := by
  obtain ⟨g, p, f, fpB, fpS, hg, hp, hall, h1, h2⟩ : ∃ g p f fpB fpS,
      Grammar.new (HashOrder.id Nat) 0 1 [⟨1, [10, 2]⟩, ⟨2, [11, 3]⟩, ⟨3, [12]⟩] = .ok g ∧
      Built (HashOrder.id Nat) g (some (logCalls decliner)) p ∧
      (∀ x ∈ [1, 2, 3], ∀ a ∈ [10, 2, 11, 3, 12],
        ((p.transitions.getProductions x a).getD []).length ≤ 1) ∧
      Parses p [⟨none, 10⟩, ⟨none, 11⟩, ⟨none, 13⟩] ((), []) (.err f)
        ((), [⟨2, [], false⟩, ⟨1, [fpB], false⟩, ⟨0, [fpS], false⟩]) ∧
      reportChain f = [[fpB], [fpS]] :=
    ⟨_, _, _, _, _, rfl, Parser.built_of_eval_solver (n := 10) rfl, by decide,
      Parser.parse_returns (n := 30) rfl, rfl⟩
  exact ⟨g, p, f, fpB, fpS, hg, hp, conflictFree_of_check hg hp hall, h1, h2⟩

/-- With conflicts it is false: `S → A | B`, `A → a b`, `B → a c` on `a d`. The report has two failed
productions of `S`, in which `A` and `B` failed; the solver is asked about `S` only. -/
theorem C78_conflicts_hide_failures : ∃ g p f fpA fpB fps,
    Grammar.new (HashOrder.id Nat) 0 1 [⟨1, [2]⟩, ⟨1, [3]⟩, ⟨2, [10, 11]⟩, ⟨3, [10, 12]⟩] = .ok g ∧
    Built (HashOrder.id Nat) g (some (logCalls decliner)) p ∧
    Parses p [⟨none, 10⟩, ⟨none, 13⟩] ((), []) (.err f) ((), [⟨0, fps, false⟩]) ∧
    reportChain f = [[fpA], [fpB], fps] :=
  ⟨_, _, _, _, _, _, rfl, Parser.built_of_eval_solver (n := 10) rfl,
    Parser.parse_returns (n := 30) rfl, rfl⟩

end Verif.Props
