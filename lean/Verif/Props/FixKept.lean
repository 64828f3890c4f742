import Verif.Proof.FixKept
import Verif.Proof.LastAnswer
import Verif.Props.CallOrder

/-!
# Property C41 for conflict-free tables
-/

set_option linter.unusedSectionVars false

namespace Verif.Props

open Verif.Spec Verif.Examples

variable {σ L T : Type} [DecidableEq T]

/-- **C41**, the case of conflict-free tables: if the solver returned a fix of one or more failed
productions during the parse, the result is `Fix`, or `Err` with a report in which a fix stands. Missing
of the full property: that the result is `Fix`, which is false (`C41_fix_only_reported`); fixes of empty
lists of failed productions; tables with conflicts (`C41_fix_lost`). -/
theorem C41_conflict_free_partial (h : HashOrder T) (eps init : T) (ps : List (Production T))
    (g : Grammar T) (hg : Grammar.new h eps init ps = .ok g) (sv : Solver σ L T)
    (p : Parser (σ × List (LoggedCall L T)) L T) (hp : Built h g (some (logCalls sv)) p)
    (hcf : ConflictFree p.transitions) (tokens : List (Token L T)) (s s' : σ) (r : ParseResult L T)
    (log : List (LoggedCall L T)) (hr : Parses p tokens (s, []) r (s', log))
    (c : LoggedCall L T) (hc : c ∈ log) (hfix : c.fixed = true) (hne : c.failed ≠ []) :
    (∃ fs, r = .fix fs) ∨ (∃ f, r = .err f ∧ HasFix f) := by
  cases tokens with
  | nil =>
    obtain ⟨n, hn⟩ := Parser.parses_at hr
    simp [Parser.parseFromTokens] at hn
  | cons t ts =>
    obtain ⟨o, ho, hres⟩ := ((C38_exact_result h eps init ps g hg _ p hp t ts (s, [])).1 _ _).1 hr
    have hlen : ∀ x a, (candidates p.transitions x a).length ≤ 1 := by
      intro x a
      rw [← Parser.getTokenProductions_eq]
      exact Parser.conflictFree_length hcf x a
    have := Parser.Recovery.choice_fixKept hlen ho (hlen _ _)
    match o, this, hres with
    | .found (.node _ _ _) _, ⟨new, h1, h2⟩, hres =>
      simp only [Recovery.result, Option.some.injEq, Prod.mk.injEq] at hres
      obtain ⟨rfl, rfl⟩ := hres
      simp only [List.nil_append] at h1
      exact (h2 ⟨c, h1 ▸ hc, hfix, hne⟩).elim
    | .found (.fixed _ _) _, _, hres =>
      simp only [Recovery.result, Option.some.injEq, Prod.mk.injEq] at hres
      obtain ⟨rfl, rfl⟩ := hres
      exact .inl ⟨_, rfl⟩
    | .failed f _, ⟨new, h1, h2⟩, hres =>
      simp only [Recovery.result, Option.some.injEq, Prod.mk.injEq] at hres
      obtain ⟨rfl, rfl⟩ := hres
      simp only [List.nil_append] at h1
      exact .inr ⟨f, rfl, h2 ⟨c, h1 ▸ hc, hfix, hne⟩⟩
    | .panicked, _, hres => simp [Recovery.result] at hres

/-- The hypotheses of `C41_conflict_free_partial` are met, and both cases occur: with `S → B c`,
`B → b d` the solver fixes `B` on `b e`; the parse of `b e` ends in `Err`, since `c` is missing and the
solver declines to fix `S`; that of `b e c` in `Fix`. -/
theorem C41_fix_only_reported : ∃ g p f fs fpB fpS,
    Grammar.new (HashOrder.id Nat) 0 1 [⟨1, [2, 12]⟩, ⟨2, [11, 13]⟩] = .ok g ∧
    Built (HashOrder.id Nat) g (some (logCalls fixesFirst)) p ∧ ConflictFree p.transitions ∧
    Parses p [⟨none, 11⟩, ⟨none, 14⟩] (false, []) (.err f)
      (true, [⟨0, [fpB], true⟩, ⟨0, [fpS], false⟩]) ∧ HasFix f ∧
    Parses p [⟨none, 11⟩, ⟨none, 12⟩] (false, []) (.fix fs) (true, [⟨0, [fpB], true⟩]) := by
  obtain ⟨g, p, f, fs, fpB, fpS, hg, hp, hall, h1, h2⟩ : ∃ g p f fs fpB fpS,
      Grammar.new (HashOrder.id Nat) 0 1 [⟨1, [2, 12]⟩, ⟨2, [11, 13]⟩] = .ok g ∧
      Built (HashOrder.id Nat) g (some (logCalls fixesFirst)) p ∧
      (∀ x ∈ [1, 2], ∀ a ∈ [2, 12, 11, 13],
        ((p.transitions.getProductions x a).getD []).length ≤ 1) ∧
      Parses p [⟨none, 11⟩, ⟨none, 14⟩] (false, []) (.err f)
        (true, [⟨0, [fpB], true⟩, ⟨0, [fpS], false⟩]) ∧
      Parses p [⟨none, 11⟩, ⟨none, 12⟩] (false, []) (.fix fs) (true, [⟨0, [fpB], true⟩]) :=
    ⟨_, _, _, _, _, _, rfl, Parser.built_of_eval_solver (n := 10) rfl, by decide,
      Parser.parse_returns (n := 30) rfl, Parser.parse_returns (n := 30) rfl⟩
  have hcf := conflictFree_of_check hg hp hall
  refine ⟨g, p, f, fs, fpB, fpS, hg, hp, hcf, h1, ?_, h2⟩
  rcases C41_conflict_free_partial _ _ _ _ g hg _ p hp hcf _ _ _ _ _ h1 ⟨0, [fpB], true⟩ (by simp) rfl
    (by simp) with ⟨fs, h⟩ | ⟨f', h, h'⟩
  · cases h
  · cases h
    exact h'

/-- **C41**, exactly, for conflict-free tables: the last answer of the solver decides. The result is `Ok`
if and only if the solver was not called, `Fix` if and only if it was and its last answer was a fix, `Err`
if and only if its last answer was none. The hypotheses are met: `C41_fix_only_reported` has runs that end
in `Err` and in `Fix`. With conflicts it is false: `C59_backtracking_skips_parent`. -/
theorem C41_last_answer_decides (h : HashOrder T) (eps init : T) (ps : List (Production T))
    (g : Grammar T) (hg : Grammar.new h eps init ps = .ok g) (sv : Solver σ L T)
    (p : Parser (σ × List (LoggedCall L T)) L T) (hp : Built h g (some (logCalls sv)) p)
    (hcf : ConflictFree p.transitions) (tokens : List (Token L T)) (s s' : σ) (r : ParseResult L T)
    (log : List (LoggedCall L T)) (hr : Parses p tokens (s, []) r (s', log)) :
    ((∃ tree, r = .ok tree) ↔ log = []) ∧
    ((∃ fs, r = .fix fs) ↔ ∃ c, log.getLast? = some c ∧ c.fixed = true) ∧
    ((∃ f, r = .err f) ↔ ∃ c, log.getLast? = some c ∧ c.fixed = false) := by
  cases tokens with
  | nil =>
    obtain ⟨n, hn⟩ := Parser.parses_at hr
    simp [Parser.parseFromTokens] at hn
  | cons t ts =>
    obtain ⟨o, ho, hres⟩ := ((C38_exact_result h eps init ps g hg _ p hp t ts (s, [])).1 _ _).1 hr
    have hlen : ∀ x a, (candidates p.transitions x a).length ≤ 1 := by
      intro x a
      rw [← Parser.getTokenProductions_eq]
      exact Parser.conflictFree_length hcf x a
    have := Parser.Recovery.choice_ends hlen ho (hlen _ _)
    match o, this, hres with
    | .found (.node _ _ _) _, h1, hres =>
      simp only [Recovery.result, Option.some.injEq, Prod.mk.injEq] at hres
      obtain ⟨rfl, rfl⟩ := hres
      have h1 : log = [] := h1
      subst h1
      simp
    | .found (.fixed _ _) _, ⟨new, c, h1, h2⟩, hres =>
      simp only [Recovery.result, Option.some.injEq, Prod.mk.injEq] at hres
      obtain ⟨rfl, rfl⟩ := hres
      simp only [List.nil_append] at h1
      subst h1
      simp [h2]
    | .failed f _, ⟨new, c, h1, h2⟩, hres =>
      simp only [Recovery.result, Option.some.injEq, Prod.mk.injEq] at hres
      obtain ⟨rfl, rfl⟩ := hres
      simp only [List.nil_append] at h1
      subst h1
      simp [h2]
    | .panicked, _, hres => simp [Recovery.result] at hres

end Verif.Props
