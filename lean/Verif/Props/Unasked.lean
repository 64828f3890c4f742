import Verif.Proof.Unasked
import Verif.Props.FixKept

/-!
# Property C61: what `fix_failed_productions` gets was found without the solver
-/

set_option linter.unusedSectionVars false

namespace Verif.Props

open Verif.Spec Verif.Examples

variable {σ L T : Type} [DecidableEq T]

/-- **C61.** Log the calls of the solver. Each call is for the last candidates of some symbol on the
single path, as many as there are failed productions. If it is a call of `fix_failed_productions` (there
is not exactly one), no fix was tried for these candidates: the failed productions are those that the
search *without* a solver gives for them, and there is no fix in them, at any depth. -/
theorem C61_no_attempt_before (h : HashOrder T) (eps init : T) (ps : List (Production T))
    (g : Grammar T) (hg : Grammar.new h eps init ps = .ok g) (sv : Solver σ L T)
    (p : Parser (σ × List (LoggedCall L T)) L T) (hp : Built h g (some (logCalls sv)) p)
    (tokens : List (Token L T)) (s s' : σ) (r : ParseResult L T)
    (log : List (LoggedCall L T)) (hr : Parses p tokens (s, []) r (s', log))
    (c : LoggedCall L T) (hc : c ∈ log) :
    ∃ t x outs, tokens[c.pos]? = some t ∧
      SinglePath (candidates p.transitions) tokens init x c.pos ∧
      outs.IsSuffix (candidates p.transitions x t.tType) ∧ outs.length = c.failed.length ∧
      (c.failed.length ≠ 1 →
        Recovery.Alts eps ps (candidates p.transitions) (none : Option (Solver Unit L T)) tokens x c.pos
          false outs () (.failed c.failed ()) ∧
        ¬ HasFix (.mk c.failed x)) := by
  cases tokens with
  | nil =>
    obtain ⟨n, hn⟩ := Parser.parses_at hr
    simp [Parser.parseFromTokens] at hn
  | cons t ts =>
    obtain ⟨o, ho, hres⟩ := ((C38_exact_result h eps init ps g hg _ p hp t ts (s, [])).1 _ _).1 hr
    have := Parser.Recovery.choice_calls (init := init) ho
      ⟨t, rfl, List.suffix_rfl, fun _ => .root⟩
    have hall : Parser.Recovery.CallsOk eps ps (candidates p.transitions) (t :: ts) init log := by
      have h0 : Parser.Recovery.CallsOk eps ps (candidates p.transitions) (t :: ts) init [] :=
        fun c h => by cases h
      match o, this, hres with
      | .found (.node _ _ _) _, h1, hres =>
        simp only [Recovery.result, Option.some.injEq, Prod.mk.injEq] at hres
        obtain ⟨_, rfl⟩ := hres
        exact h1.1 h0
      | .found (.fixed _ _) _, h1, hres =>
        simp only [Recovery.result, Option.some.injEq, Prod.mk.injEq] at hres
        obtain ⟨_, rfl⟩ := hres
        exact h1.1 h0
      | .failed f _, h1, hres =>
        simp only [Recovery.result, Option.some.injEq, Prod.mk.injEq] at hres
        obtain ⟨_, rfl⟩ := hres
        exact h1 h0
      | .panicked, _, hres => simp [Recovery.result] at hres
    exact hall c hc

/-- The hypotheses of C61 are met, by a run with a call for two failed productions under which another
non-terminal failed: `S → a B`, `B → C b | C c`, `C → d e` on `a d f`. The solver is not asked about
`C`. -/
example : ∃ g p f fp1 fp2 fpS,
    Grammar.new (HashOrder.id Nat) 0 1 [⟨1, [10, 2]⟩, ⟨2, [3, 11]⟩, ⟨2, [3, 12]⟩, ⟨3, [13, 14]⟩] = .ok g ∧
    Built (HashOrder.id Nat) g (some (logCalls decliner)) p ∧
    Parses p [⟨none, 10⟩, ⟨none, 13⟩, ⟨none, 15⟩] ((), []) (.err f)
      ((), [⟨1, [fp1, fp2], false⟩, ⟨0, [fpS], false⟩]) ∧
    fp1.failedSymbol.symbolToDerive = 3 ∧ fp1.failedSymbol.failedProductions.length = 1 :=
  ⟨_, _, _, _, _, _, rfl, Parser.built_of_eval_solver (n := 10) rfl,
    Parser.parse_returns (n := 30) rfl, rfl, rfl⟩

/-- What `fix_failed_production` gets may hold a fix: with `S → B c`, `B → b d` on `b e` the solver fixes
`B` and is then asked about the production of `S`. -/
theorem C61_single_call_after_fix : ∃ g p f fpB fpS,
    Grammar.new (HashOrder.id Nat) 0 1 [⟨1, [2, 12]⟩, ⟨2, [11, 13]⟩] = .ok g ∧
    Built (HashOrder.id Nat) g (some (logCalls fixesFirst)) p ∧
    Parses p [⟨none, 11⟩, ⟨none, 14⟩] (false, []) (.err f)
      (true, [⟨0, [fpB], true⟩, ⟨0, [fpS], false⟩]) ∧ HasFix (.mk [fpS] 1) :=
  ⟨_, _, _, _, _, rfl, Parser.built_of_eval_solver (n := 10) rfl, Parser.parse_returns (n := 30) rfl,
    _, _, .here _ (List.mem_singleton_self _), List.mem_singleton_self _⟩

end Verif.Props
