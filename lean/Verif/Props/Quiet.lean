import Verif.Proof.Quiet
import Verif.Props.Recovery

/-!
# Property C57: only fixes change the outcome
-/

set_option linter.unusedSectionVars false

namespace Verif.Props

open Verif.Spec Verif.Examples

variable {σ τ L T : Type} [DecidableEq T]

/-- **C57.** If during a parse with a solver the solver returned no fix, the result is the one of the
parser without a solver. (`countFixes sv` is `sv` with a counter of the fixes it returned.) -/
theorem C57_no_fix_no_change (h h' : HashOrder T) (eps init : T) (ps : List (Production T))
    (g g' : Grammar T) (hg : Grammar.new h eps init ps = .ok g)
    (hg' : Grammar.new h' eps init ps = .ok g') (sv : Solver σ L T) (p : Parser (σ × Nat) L T)
    (hp : Built h g (some (countFixes sv)) p) (p0 : Parser τ L T) (hp0 : Built h' g' none p0)
    (tokens : List (Token L T)) (s s' : σ) (r : ParseResult L T)
    (hr : Parses p tokens (s, 0) r (s', 0)) (t : τ) : Parses p0 tokens t r t := by
  obtain ⟨n, hn⟩ := Parser.parses_at hr
  have hc : Parser.CountsFixes (countFixes sv) := by
    constructor <;>
    · intro tokens pos f s n r s' n' e
      simp only [countFixes] at e
      split at e <;> simp only [Out.ok.injEq, Prod.mk.injEq, reduceCtorEq] at e
      · obtain ⟨rfl, rfl, rfl⟩ := e
        exact ⟨by omega, fun h => by omega⟩
      · obtain ⟨rfl, rfl, rfl⟩ := e
        exact ⟨Nat.le_refl _, fun _ => rfl⟩
  have := (Parser.parseFromTokens_quiet (Parser.agree_of_built hg hg' hp hp0)
    (Parser.tableParser_of_built hg hp).2 hc (Parser.tableParser_of_built hg' hp0).2 tokens n
    s 0 r s' 0 t hn).2 rfl
  exact Parser.parse_returns this

/-- The counter of `countFixes` does not change what the parser does. -/
theorem C57_counting_is_transparent (h h' : HashOrder T) (eps init : T) (ps : List (Production T))
    (g g' : Grammar T) (hg : Grammar.new h eps init ps = .ok g)
    (hg' : Grammar.new h' eps init ps = .ok g') (sv : Solver σ L T) (p : Parser σ L T)
    (hp : Built h g (some sv) p) (p' : Parser (σ × Nat) L T)
    (hp' : Built h' g' (some (countFixes sv)) p') (tokens : List (Token L T)) (s : σ) (n : Nat) :
    (∀ r s', Parses p tokens s r s' ↔ ∃ n', Parses p' tokens (s, n) r (s', n')) ∧
    (ParsePanics p tokens s ↔ ParsePanics p' tokens (s, n)) ∧
    (ParseDiverges p tokens s ↔ ParseDiverges p' tokens (s, n)) := by
  have hs := (Parser.tableParser_of_built hg hp).2
  have hs' := (Parser.tableParser_of_built hg' hp').2
  have P := (Parser.tableParser_of_built hg hp).1.toParserOf
  obtain ⟨h1, h2, h3, h4⟩ := Parser.outcomes_of_sim (R := fun (s : σ) (u : σ × Nat) => u.1 = s) (s := s)
    (s' := (s, n)) (φ := id)
    (Parser.sim_of_fixSim P (Parser.agree_of_built hg hg' hp hp') (tokens := tokens) (by
      intro pos outs sg failed x _ _
      have h1 (f) : Sim (fun (s : σ) (u : σ × Nat) => u.1 = s) id
          (sv.fixFailedProduction tokens pos f)
          ((countFixes sv).fixFailedProduction tokens pos f) := by
        rintro s ⟨u, m⟩ rfl
        simp only [countFixes]
        cases sv.fixFailedProduction tokens pos f u with
        | ok a =>
          obtain ⟨o, s1⟩ := a
          cases o with
          | none => exact ⟨_, rfl, rfl⟩
          | some r => exact ⟨_, rfl, rfl⟩
        | panic e => rfl
        | fuel => rfl
      have h2 : Sim (fun (s : σ) (u : σ × Nat) => u.1 = s) id
          (sv.fixFailedProductions tokens pos failed)
          ((countFixes sv).fixFailedProductions tokens pos failed) := by
        rintro s ⟨u, m⟩ rfl
        simp only [countFixes]
        cases sv.fixFailedProductions tokens pos failed u with
        | ok a =>
          obtain ⟨o, s1⟩ := a
          cases o with
          | none => exact ⟨_, rfl, rfl⟩
          | some r => exact ⟨_, rfl, rfl⟩
        | panic e => rfl
        | fuel => rfl
      unfold Parser.tryFixProductions
      rw [hs, hs']
      cases sg with
      | false => exact fun s u e => ⟨_, rfl, e⟩
      | true =>
        cases Parser.isChildSinglePath true outs with
        | false => exact h2
        | true =>
          cases failed[0]? with
          | none => exact fun s u e => rfl
          | some f => exact h1 f)) rfl
  refine ⟨?_, h3, h4⟩
  intro r s'
  constructor
  · intro hr
    obtain ⟨⟨s1, n1⟩, hr', hs1⟩ := h1 r s' hr
    simp only at hs1
    subst hs1
    exact ⟨n1, hr'⟩
  · rintro ⟨n', hr⟩
    obtain ⟨r', s1, hr', rfl, hs1⟩ := h2 r (s', n') hr
    simp only at hs1
    subst hs1
    exact hr'

/-- A solver that skips one token, but not the first. -/
def skipLater : Solver Unit Unit Nat where
  fixFailedProduction _ pos _ := pure (if pos = 0 then none else some ⟨pos + 1, .mk []⟩)
  fixFailedProductions _ pos _ := pure (if pos = 0 then none else some ⟨pos + 1, .mk []⟩)

/-- With a fix the result can be `Err` although the parser without a solver accepts: `S → D c`,
`D → C B`, `C → a | a a`, `B → b` on `a a b c`. `B` is fixed behind `C → a`; then `c` is missing. -/
theorem C57_fix_turns_ok_into_err : ∃ g p p0 f tree,
    Grammar.new (HashOrder.id Nat) 0 1
      [⟨1, [2, 12]⟩, ⟨2, [3, 4]⟩, ⟨3, [10]⟩, ⟨3, [10, 10]⟩, ⟨4, [11]⟩] = .ok g ∧
    Built (HashOrder.id Nat) g (some (countFixes skipLater)) p ∧
    Built (σ := Unit) (L := Unit) (HashOrder.id Nat) g none p0 ∧
    Parses p0 [⟨none, 10⟩, ⟨none, 10⟩, ⟨none, 11⟩, ⟨none, 12⟩] () (.ok tree) () ∧
    Parses p [⟨none, 10⟩, ⟨none, 10⟩, ⟨none, 11⟩, ⟨none, 12⟩] ((), 0) (.err f) ((), 1) :=
  ⟨_, _, _, _, _, rfl, Parser.built_of_eval_solver (n := 10) rfl, Parser.built_of_eval (n := 10) rfl,
    Parser.parse_returns (n := 30) rfl, Parser.parse_returns (n := 30) rfl⟩

/-- And both can accept, with different trees: `S → E D c`, `D → C B`, `E → a | a a`, `C → a | a a`,
`B → b` on `a a a b c`. Without a solver `E` is one `a`, with the solver it is two. -/
theorem C57_fix_changes_tree : ∃ g p p0 tree tree',
    Grammar.new (HashOrder.id Nat) 0 1
      [⟨1, [5, 2, 12]⟩, ⟨2, [3, 4]⟩, ⟨3, [10]⟩, ⟨3, [10, 10]⟩, ⟨4, [11]⟩, ⟨5, [10]⟩, ⟨5, [10, 10]⟩] = .ok g ∧
    Built (HashOrder.id Nat) g (some (countFixes skipLater)) p ∧
    Built (σ := Unit) (L := Unit) (HashOrder.id Nat) g none p0 ∧
    Parses p0 [⟨none, 10⟩, ⟨none, 10⟩, ⟨none, 10⟩, ⟨none, 11⟩, ⟨none, 12⟩] () (.ok tree) () ∧
    Parses p [⟨none, 10⟩, ⟨none, 10⟩, ⟨none, 10⟩, ⟨none, 11⟩, ⟨none, 12⟩] ((), 0) (.ok tree') ((), 1) ∧
    (tree.root.childNodes.head?.map (·.childNodes.length)) = some 1 ∧
    (tree'.root.childNodes.head?.map (·.childNodes.length)) = some 2 :=
  ⟨_, _, _, _, _, rfl, Parser.built_of_eval_solver (n := 10) rfl, Parser.built_of_eval (n := 10) rfl,
    Parser.parse_returns (n := 30) rfl, Parser.parse_returns (n := 30) rfl, rfl, rfl⟩

/-- The hypotheses of C57 are met, with solver calls: `S → a B`, `B → b` on `a c`, where the solver is
asked twice and declines. -/
example : ∃ g p p0 f,
    Grammar.new (HashOrder.id Nat) 0 1 [⟨1, [10, 2]⟩, ⟨2, [11]⟩] = .ok g ∧
    Built (HashOrder.id Nat) g (some (countFixes loggingSolver)) p ∧
    Built (σ := Unit) (L := Unit) (HashOrder.id Nat) g none p0 ∧
    Parses p [⟨none, 10⟩, ⟨none, 12⟩] ([], 0) (.err f) ([(true, 1, 0), (false, 0, 1)], 0) :=
  ⟨_, _, _, _, rfl, Parser.built_of_eval_solver (n := 10) rfl, Parser.built_of_eval (n := 10) rfl,
    Parser.parse_returns (n := 30) rfl⟩

end Verif.Props
