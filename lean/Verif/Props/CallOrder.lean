import Verif.Proof.CallLog
import Verif.Props.ErrorsOnly
import Verif.Props.Recovery

/-!
# Properties C59, C60: the order of solver calls
-/

set_option linter.unusedSectionVars false

namespace Verif.Props

open Verif.Spec Verif.Examples

variable {σ L T : Type} [DecidableEq T]

/-- **C59.** Let the table have no conflicts and log the calls of the solver. If the solver declined to
fix the failed productions of a symbol (there was at least one), then later it was asked, with
`fix_failed_production`, to fix the production in which that symbol failed; or the symbol is the initial
symbol and the result is `Err` with these failed productions. -/
theorem C59_declined_then_parent (h : HashOrder T) (eps init : T) (ps : List (Production T))
    (g : Grammar T) (hg : Grammar.new h eps init ps = .ok g) (sv : Solver σ L T)
    (p : Parser (σ × List (LoggedCall L T)) L T) (hp : Built h g (some (logCalls sv)) p)
    (hcf : ConflictFree p.transitions) (tokens : List (Token L T)) (s s' : σ) (r : ParseResult L T)
    (log : List (LoggedCall L T)) (hr : Parses p tokens (s, []) r (s', log))
    (before after : List (LoggedCall L T)) (c : LoggedCall L T) (hlog : log = before ++ c :: after)
    (hc : c.fixed = false) (hne : c.failed ≠ []) :
    (∃ c' ∈ after, ∃ fp, c'.failed = [fp] ∧ fp.failedSymbol.failedProductions = c.failed) ∨
    (∃ f, r = .err f ∧ f.failedProductions = c.failed) := by
  cases tokens with
  | nil =>
    obtain ⟨n, hn⟩ := Parser.parses_at hr
    simp [Parser.parseFromTokens] at hn
  | cons t ts =>
    obtain ⟨o, ho, hres⟩ := ((C38_exact_result h eps init ps g hg _ p hp t ts (s, [])).1 _ _).1 hr
    have hlen : ∀ x a, (candidates p.transitions x a).length ≤ 1 := by
      intro x a
      rw [← Parser.getTokenProductions_eq]
      exact Parser.conflictFree_length hcf x a
    have := Parser.Recovery.choice_followed hlen ho (hlen _ _)
    match o, this, hres with
    | .found (.node _ _ _) _, ⟨new, h1, h2⟩, hres =>
      simp only [Recovery.result, Option.some.injEq, Prod.mk.injEq] at hres
      obtain ⟨rfl, rfl⟩ := hres
      simp only [List.nil_append] at h1
      exact (h2 before c after (h1 ▸ hlog) hc hne).imp id False.elim
    | .found (.fixed _ _) _, ⟨new, h1, h2⟩, hres =>
      simp only [Recovery.result, Option.some.injEq, Prod.mk.injEq] at hres
      obtain ⟨rfl, rfl⟩ := hres
      simp only [List.nil_append] at h1
      exact (h2 before c after (h1 ▸ hlog) hc hne).imp id False.elim
    | .failed f _, ⟨new, h1, h2⟩, hres =>
      simp only [Recovery.result, Option.some.injEq, Prod.mk.injEq] at hres
      obtain ⟨rfl, rfl⟩ := hres
      simp only [List.nil_append] at h1
      exact (h2 before c after (h1 ▸ hlog) hc hne).imp id fun h => ⟨f, rfl, h.symm⟩
    | .panicked, _, hres => simp [Recovery.result] at hres

/-- **C60.** Log the calls of the solver. If it was asked, with `fix_failed_production`, to fix a
production in which a non-terminal failed, it was asked before to fix the failed productions of that
non-terminal and declined. -/
theorem C60_production_after_its_symbol (h : HashOrder T) (eps init : T) (ps : List (Production T))
    (g : Grammar T) (hg : Grammar.new h eps init ps = .ok g) (sv : Solver σ L T)
    (p : Parser (σ × List (LoggedCall L T)) L T) (hp : Built h g (some (logCalls sv)) p)
    (tokens : List (Token L T)) (s s' : σ) (r : ParseResult L T)
    (log : List (LoggedCall L T)) (hr : Parses p tokens (s, []) r (s', log))
    (before after : List (LoggedCall L T)) (c : LoggedCall L T) (hlog : log = before ++ c :: after)
    (fp : FailedProduction L T) (hc : c.failed = [fp])
    (hnt : IsNonTerminal ps fp.failedSymbol.symbolToDerive) :
    ∃ c' ∈ before, c'.fixed = false ∧ c'.failed = fp.failedSymbol.failedProductions := by
  cases tokens with
  | nil =>
    obtain ⟨n, hn⟩ := Parser.parses_at hr
    simp [Parser.parseFromTokens] at hn
  | cons t ts =>
    obtain ⟨o, ho, hres⟩ := ((C38_exact_result h eps init ps g hg _ p hp t ts (s, [])).1 _ _).1 hr
    have := Parser.Recovery.choice_declined ho
    have hstep : Parser.Recovery.Step ps (s, []) (s', log) := by
      match o, this, hres with
      | .found (.node _ _ _) _, h1, hres =>
        simp only [Recovery.result, Option.some.injEq, Prod.mk.injEq] at hres
        obtain ⟨_, rfl⟩ := hres
        exact h1
      | .found (.fixed _ _) _, h1, hres =>
        simp only [Recovery.result, Option.some.injEq, Prod.mk.injEq] at hres
        obtain ⟨_, rfl⟩ := hres
        exact h1
      | .failed f _, h1, hres =>
        simp only [Recovery.result, Option.some.injEq, Prod.mk.injEq] at hres
        obtain ⟨_, rfl⟩ := hres
        exact h1.1
      | .panicked, _, hres => simp [Recovery.result] at hres
    exact hstep.2 (by intro a e b h; simp at h) before c after hlog fp hc hnt

/-- Logging does not change what the parser does. -/
theorem C59_logging_is_transparent (h h' : HashOrder T) (eps init : T) (ps : List (Production T))
    (g g' : Grammar T) (hg : Grammar.new h eps init ps = .ok g)
    (hg' : Grammar.new h' eps init ps = .ok g') (sv : Solver σ L T) (p : Parser σ L T)
    (hp : Built h g (some sv) p) (p' : Parser (σ × List (LoggedCall L T)) L T)
    (hp' : Built h' g' (some (logCalls sv)) p') (tokens : List (Token L T)) (s : σ)
    (log : List (LoggedCall L T)) :
    (∀ r s', Parses p tokens s r s' ↔ ∃ log', Parses p' tokens (s, log) r (s', log')) ∧
    (ParsePanics p tokens s ↔ ParsePanics p' tokens (s, log)) ∧
    (ParseDiverges p tokens s ↔ ParseDiverges p' tokens (s, log)) := by
  have hs := (Parser.tableParser_of_built hg hp).2
  have hs' := (Parser.tableParser_of_built hg' hp').2
  have P := (Parser.tableParser_of_built hg hp).1.toParserOf
  obtain ⟨h1, h2, h3, h4⟩ := Parser.outcomes_of_sim
    (R := fun (s : σ) (u : σ × List (LoggedCall L T)) => u.1 = s) (s := s)
    (s' := (s, log)) (φ := id)
    (Parser.sim_of_fixSim P (Parser.agree_of_built hg hg' hp hp') (tokens := tokens) (by
      intro pos outs sg failed x _ _
      have h1 (f) : Sim (fun (s : σ) (u : σ × List (LoggedCall L T)) => u.1 = s) id
          (sv.fixFailedProduction tokens pos f)
          ((logCalls sv).fixFailedProduction tokens pos f) := by
        rintro s ⟨u, m⟩ rfl
        simp only [logCalls]
        cases sv.fixFailedProduction tokens pos f u with
        | ok a => exact ⟨_, rfl, rfl⟩
        | panic e => rfl
        | fuel => rfl
      have h2 : Sim (fun (s : σ) (u : σ × List (LoggedCall L T)) => u.1 = s) id
          (sv.fixFailedProductions tokens pos failed)
          ((logCalls sv).fixFailedProductions tokens pos failed) := by
        rintro s ⟨u, m⟩ rfl
        simp only [logCalls]
        cases sv.fixFailedProductions tokens pos failed u with
        | ok a => exact ⟨_, rfl, rfl⟩
        | panic e => rfl
        | fuel => rfl
      unfold Parser.tryFixProductions
      rw [hs, hs']
      cases sg with
      | false => exact fun s u e => ⟨_, rfl, e⟩
      | true =>
        cases Parser.isChildSinglePath true outs with
        | false => exact h2
        | true =>
          cases failed[0]? with
          | none => exact fun s u e => rfl
          | some f => exact h1 f)) rfl
  refine ⟨?_, h3, h4⟩
  intro r s'
  constructor
  · intro hr
    obtain ⟨⟨s1, n1⟩, hr', hs1⟩ := h1 r s' hr
    simp only at hs1
    subst hs1
    exact ⟨n1, hr'⟩
  · rintro ⟨n', hr⟩
    obtain ⟨r', s1, hr', rfl, hs1⟩ := h2 r (s', n') hr
    simp only at hs1
    subst hs1
    exact hr'

/-- A solver that always declines. -/
def decliner : Solver Unit Unit Nat where
  fixFailedProduction _ _ _ := pure none
  fixFailedProductions _ _ _ := pure none

/-- With conflicts the documented "an unsuccessful attempt to fix `C → E` results in an attempt to fix
`A → B C D`" is false: `S → B C`, `B → a | a a`, `C → a d | c` on `a a c`. The solver is asked to fix
`C → a d` and declines; then `B` is derived by `a a` and the result is `Ok`. -/
theorem C59_backtracking_skips_parent : ∃ g p tree fp,
    Grammar.new (HashOrder.id Nat) 0 1 [⟨1, [2, 3]⟩, ⟨2, [10]⟩, ⟨2, [10, 10]⟩, ⟨3, [10, 13]⟩, ⟨3, [11]⟩]
      = .ok g ∧
    Built (HashOrder.id Nat) g (some (logCalls decliner)) p ∧
    Parses p [⟨none, 10⟩, ⟨none, 10⟩, ⟨none, 11⟩] ((), []) (.ok tree) ((), [⟨1, [fp], false⟩]) :=
  ⟨_, _, _, _, rfl, Parser.built_of_eval_solver (n := 10) rfl, Parser.parse_returns (n := 30) rfl⟩

/-- The hypotheses of C59 and C60 are met, by a run with three calls: `S → a B`, `B → b C`, `C → c` on
`a b d`: the solver is asked about `C` (no candidate), `B` and `S`. -/
example : ∃ g p f fpB fpS,
    Grammar.new (HashOrder.id Nat) 0 1 [⟨1, [10, 2]⟩, ⟨2, [11, 3]⟩, ⟨3, [12]⟩] = .ok g ∧
    Built (HashOrder.id Nat) g (some (logCalls decliner)) p ∧ ConflictFree p.transitions ∧
    Parses p [⟨none, 10⟩, ⟨none, 11⟩, ⟨none, 13⟩] ((), []) (.err f)
      ((), [⟨2, [], false⟩, ⟨1, [fpB], false⟩, ⟨0, [fpS], false⟩]) ∧
    fpS.failedSymbol.symbolToDerive = 2 ∧ fpS.failedSymbol.failedProductions = [fpB] := by
  obtain ⟨g, p, f, fpB, fpS, hg, hp, hall, h1⟩ : ∃ g p f fpB fpS,
      Grammar.new (HashOrder.id Nat) 0 1 [⟨1, [10, 2]⟩, ⟨2, [11, 3]⟩, ⟨3, [12]⟩] = .ok g ∧
      Built (HashOrder.id Nat) g (some (logCalls decliner)) p ∧
      (∀ x ∈ [1, 2, 3], ∀ a ∈ [10, 2, 11, 3, 12],
        ((p.transitions.getProductions x a).getD []).length ≤ 1) ∧
      Parses p [⟨none, 10⟩, ⟨none, 11⟩, ⟨none, 13⟩] ((), []) (.err f)
        ((), [⟨2, [], false⟩, ⟨1, [fpB], false⟩, ⟨0, [fpS], false⟩]) ∧
      fpS.failedSymbol.symbolToDerive = 2 ∧ fpS.failedSymbol.failedProductions = [fpB] :=
    ⟨_, _, _, _, _, rfl, Parser.built_of_eval_solver (n := 10) rfl, by decide,
      Parser.parse_returns (n := 30) rfl, rfl, rfl⟩
  exact ⟨g, p, f, fpB, fpS, hg, hp, conflictFree_of_check hg hp hall, h1⟩

end Verif.Props
