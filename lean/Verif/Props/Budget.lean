import Verif.Proof.Budget
import Verif.Props.Calls
import Verif.Props.RecoveryCost

/-!
# Property C56, upper bound: the work is at most exponential, with conflicts and with any solver
-/

set_option linter.unusedSectionVars false

namespace Verif.Props

open Verif.Spec Verif.Examples

variable {σ L T : Type} [DecidableEq T]

/-- **C56**, upper bound in general. For a grammar that is not left-recursive there is a constant `C` such that
every parser for it, whatever the conflicts in its table, and with any solver that terminates and whose fixes
consume at least one token, needs at most `C ^ tokens.length` calls of `inner_parse_from_tokens` (and at most
`C` iterations per loop) to return or panic on `tokens`: with these bounds it runs into neither of them, and
returns, or panics, exactly as without bounds. Every call makes at most one call of the solver. -/
theorem C56_at_most_exponential (eps init : T) (ps : List (Production T)) (hnlr : NotLeftRecursive eps ps) :
    ∃ C, ∀ (h : HashOrder T) (g : Grammar T) (solver : Option (Solver σ L T)) (p : Parser σ L T),
      Grammar.new h eps init ps = .ok g → Built h g solver p → SolverTerminates solver →
      ∀ (tokens : List (Token L T)), SolverProgress solver tokens →
      ∀ (calls loop : Nat), C ^ tokens.length ≤ calls → C ≤ loop → ∀ s,
      p.parseFromTokensBudget calls loop tokens s ≠ .fuel ∧
      (∀ r s', Parses p tokens s r s' ↔ ∃ left, p.parseFromTokensBudget calls loop tokens s = .ok (r, s', left)) ∧
      (ParsePanics p tokens s ↔ ∃ e, p.parseFromTokensBudget calls loop tokens s = .panic e) := by
  obtain ⟨m, hm⟩ : ∃ m, ∀ r ∈ ps, r.output.length ≤ m :=
    Parser.exists_uniform ps (fun K (r : Production T) => r.output.length ≤ K)
      (fun _ _ _ h h' => by omega) (fun pr _ => ⟨_, Nat.le_refl _⟩)
  obtain ⟨K, hK⟩ : ∃ K, K = (ps.length + 2) ^ m := ⟨_, rfl⟩
  obtain ⟨A, hA⟩ : ∃ A, A = ps.length * (K * (m + 1)) + 2 := ⟨_, rfl⟩
  obtain ⟨N, hN⟩ : ∃ N, N = nonTerminalCount ps := ⟨_, rfl⟩
  refine ⟨max K (A ^ (N + 1)), ?_⟩
  intro h g solver p hg hp hterm tokens hprog calls loop hcalls hloop s
  have hKl : K ≤ loop := by omega
  have hle : ∀ q ∈ ps, (ps.length + 2) ^ q.output.length ≤ K := fun q hq => by
    rw [hK]; exact Nat.pow_le_pow_right (by omega) (hm q hq)
  obtain ⟨hne, h1, h2⟩ := C55_recursion_depth h eps init ps g hg solver p hp hnlr tokens hterm hprog s
    (max 1 (tokens.length * N)) K (by rw [hN]) hle
  obtain ⟨P, -⟩ := Parser.tableParser_of_built hg hp
  rcases Nat.eq_zero_or_pos tokens.length with h0 | h0
  · have e1 : p.parseFromTokensBudget calls loop tokens s = .panic .emptyInput := by
      unfold Parser.parseFromTokensBudget; rw [if_pos h0]
    have e2 : p.parseFromTokensWithin (max 1 (tokens.length * N)) K tokens s = .panic .emptyInput := by
      unfold Parser.parseFromTokensWithin; rw [if_pos h0]; rfl
    rw [e1]
    rw [e2] at h1 h2
    refine ⟨by simp, fun r s' => ?_, ?_⟩
    · rw [h1]; simp
    · rw [h2]; simp
  have hcand : ∀ x a, Parser.Small ps.length m (p.getTokenProductions x a) := fun x a =>
    ⟨P.toParserOf.count x a, fun o ho => hm _ (P.toParserOf.cand x a o ho)⟩
  have hpow : A ^ (max 1 (tokens.length * N)) ≤ calls := by
    refine Nat.le_trans ?_ hcalls
    refine Nat.le_trans ?_ (Nat.pow_le_pow_left (Nat.le_max_right _ _) _)
    rw [← Nat.pow_mul]
    refine Nat.pow_le_pow_right (by omega) ?_
    have : (N + 1) * tokens.length = tokens.length * N + tokens.length := by ring
    omega
  have hd : max 1 (tokens.length * N) ≤ calls :=
    Nat.le_trans (Nat.le_of_lt (Nat.lt_pow_self (by omega))) hpow
  have hb : Parser.budget (ps.length * (K * (m + 1))) (max 1 (tokens.length * N)) ≤ calls :=
    Nat.le_trans (Parser.budget_le _ _) (Nat.le_trans (Nat.pow_le_pow_left (by omega) _) hpow)
  rcases Parser.parseBudget_spec (tokens := tokens) hcand hKl hd hb s hne with
    ⟨r, s', left, e1, e2⟩ | ⟨e, e1, e2⟩
  · rw [e2]
    rw [e1] at h1 h2
    refine ⟨by simp, fun r' s2 => ?_, ?_⟩
    · rw [h1]
      simp only [Out.ok.injEq, Prod.mk.injEq]
      constructor
      · rintro ⟨rfl, rfl⟩; exact ⟨left, rfl, rfl, rfl⟩
      · rintro ⟨_, rfl, rfl, _⟩; exact ⟨rfl, rfl⟩
    · rw [h2]; simp
  · rw [e2]
    rw [e1] at h1 h2
    refine ⟨by simp, fun r' s2 => ?_, ?_⟩
    · rw [h1]; simp
    · rw [h2]; simp

/-- The hypotheses are met by the grammar and the solver of `C56_exponential_recovery`, for which the bound
is, up to the constant, reached: `2 ^ (n / 2)` solver calls on `n + 2` tokens. -/
example : NotLeftRecursive 0 nestPs ∧ SolverTerminates (some skipAndCount) ∧
    (∀ tokens, SolverProgress (some skipAndCount) tokens) ∧
    ∃ g p, Grammar.new (HashOrder.id Nat) 0 1 nestPs = .ok g ∧
      Built (HashOrder.id Nat) g (some skipAndCount) p ∧
      ∀ n, ∃ fs calls, Parses p (nestInput n) 0 (.fix fs) calls ∧ 2 ^ (n / 2) ≤ calls := by
  obtain ⟨h1, g, p, hg, hp, _, h2⟩ := C56_exponential_recovery
  refine ⟨h1, ?_, ?_, g, p, hg, hp, h2⟩
  · intro sv h
    cases h
    exact ⟨fun _ _ _ _ => by simp [skipAndCount], fun _ _ _ _ => by simp [skipAndCount]⟩
  · intro tokens q r hr
    obtain ⟨_, sv, s, s', h, h' | h'⟩ := hr
    all_goals
      cases h
      obtain ⟨f, h'⟩ := h'
      simp only [skipAndCount, Out.ok.injEq, Prod.mk.injEq, Option.some.injEq] at h'
      rw [← h'.1]
      simp

end Verif.Props
