import Verif.Proof.FixAt
import Verif.Props.Recovery

/-!
# Property C47: where the parts of a `Fix` lie in the input
-/

set_option linter.unusedSectionVars false

namespace Verif.Props

open Verif.Spec Verif.Examples

variable {σ L T : Type} [DecidableEq T]

/-- **C47.** A `Fix` result spans the input from its first token on, and every part of it, at any depth,
begins where the part before it ended: parse trees are over exactly the tokens between the end of the
part before and the begin of the part behind; a fix of the solver begins where it was asked and ends
where it said. -/
theorem C47_fix_parts_side_by_side (h : HashOrder T) (eps init : T) (ps : List (Production T))
    (g : Grammar T) (hg : Grammar.new h eps init ps = .ok g) (solver : Option (Solver σ L T))
    (p : Parser σ L T) (hp : Built h g solver p) (tokens : List (Token L T)) (s s' : σ)
    (f : FixedSymbol L T) (hr : Parses p tokens s (.fix f) s') :
    ∃ j w, FixAt eps ps solver tokens init 0 j w f := by
  obtain ⟨P, hs⟩ := Parser.tableParser_of_built hg hp
  cases tokens with
  | nil =>
    obtain ⟨n, hn⟩ := Parser.parses_at hr
    simp [Parser.parseFromTokens] at hn
  | cons t ts =>
    obtain ⟨o, ho, hres⟩ := ((Parser.Recovery.parse_iff_choice P.toParserOf t ts s).1 _ _).1 hr
    match o, ho, hres with
    | .found (.node _ _ _) _, _, hres => simp [Recovery.result] at hres
    | .failed _ _, _, hres => simp [Recovery.result] at hres
    | .panicked, _, hres => simp [Recovery.result] at hres
    | .found (.fixed fs q) s'', ho, hres =>
      simp only [Recovery.result, Option.some.injEq, Prod.mk.injEq, ParseResult.fix.injEq] at hres
      obtain ⟨rfl, rfl⟩ := hres
      have := Parser.Recovery.choice_at P.cand ho (fun o ho => P.cand _ _ _ ho) (by simp)
      obtain ⟨w, hw⟩ := this
      rw [hs] at hw
      exact ⟨q, w, hw⟩

/-- **C47**, order: if no fix of the solver ends before the position it was asked to fix, the tokens in
the trees of a `Fix` result, from left to right, are a subsequence of the input: none appears twice and
none out of order. -/
theorem C47_fix_keeps_order (h : HashOrder T) (eps init : T) (ps : List (Production T))
    (g : Grammar T) (hg : Grammar.new h eps init ps = .ok g) (solver : Option (Solver σ L T))
    (p : Parser σ L T) (hp : Built h g solver p) (tokens : List (Token L T)) (s s' : σ)
    (f : FixedSymbol L T) (hr : Parses p tokens s (.fix f) s')
    (hfw : SolverForward solver tokens) :
    ∃ j w, FixAt eps ps solver tokens init 0 j w f ∧ w.Sublist (tokens.take j) := by
  obtain ⟨j, w, hw⟩ := C47_fix_parts_side_by_side h eps init ps g hg solver p hp tokens s s' f hr
  exact ⟨j, w, hw, by simpa using (Parser.Recovery.fixAt_sublist hfw hw).2⟩

theorem countingFixer_forward (tokens : List (Token Unit Nat)) :
    SolverForward (some countingFixer) tokens := by
  rintro pos r ⟨_, sv, s, s', hsv, h⟩
  cases hsv
  rcases h with ⟨f, h⟩ | ⟨fs, h⟩ <;>
  · simp only [countingFixer, Out.ok.injEq, Prod.mk.injEq, Option.some.injEq] at h
    rw [← h.1]
    simp

/-- The hypotheses of C47 are met: `S → C B D`, `C → a`, `B → b`, `D → a`, on `a c a`: `B` is fixed by
skipping `c`, and the two `a` are kept. -/
example : ∃ g p f,
    Grammar.new (HashOrder.id Nat) 0 1 [⟨1, [2, 3, 4]⟩, ⟨2, [10]⟩, ⟨3, [11]⟩, ⟨4, [10]⟩] = .ok g ∧
    Built (HashOrder.id Nat) g (some countingFixer) p ∧
    Parses p [⟨none, 10⟩, ⟨none, 12⟩, ⟨none, 10⟩] 0 (.fix f) 1 ∧
    SolverForward (some countingFixer) [⟨none, 10⟩, ⟨none, 12⟩, ⟨none, 10⟩] ∧
    f = .mk (.mk [.ok (.mk [.mk [] ⟨none, 10⟩] ⟨none, 2⟩), .fixed (.mk (.mk []) 3),
      .ok (.mk [.mk [] ⟨none, 10⟩] ⟨none, 4⟩)]) 1 :=
  ⟨_, _, _, rfl, Parser.built_of_eval_solver (n := 10) rfl, Parser.parse_returns (n := 20) rfl,
    countingFixer_forward _, rfl⟩

/-- A solver that fixes everything by going back to the first token. -/
def rewinder : Solver Unit Unit Nat where
  fixFailedProduction _ _ _ := fun s => .ok (some ⟨0, .mk []⟩, s)
  fixFailedProductions _ _ _ := fun s => .ok (some ⟨0, .mk []⟩, s)

/-- Without the restriction a token of the input can appear twice in a `Fix`: the same grammar, on
`a c`, with a solver that goes back to the first token. -/
theorem C47_token_twice : ∃ g p,
    Grammar.new (HashOrder.id Nat) 0 1 [⟨1, [2, 3, 4]⟩, ⟨2, [10]⟩, ⟨3, [11]⟩, ⟨4, [10]⟩] = .ok g ∧
    Built (HashOrder.id Nat) g (some rewinder) p ∧
    Parses p [⟨none, 10⟩, ⟨none, 12⟩] ()
      (.fix (.mk (.mk [.ok (.mk [.mk [] ⟨none, 10⟩] ⟨none, 2⟩), .fixed (.mk (.mk []) 3),
        .ok (.mk [.mk [] ⟨none, 10⟩] ⟨none, 4⟩)]) 1)) () :=
  ⟨_, _, rfl, Parser.built_of_eval_solver (n := 10) rfl, Parser.parse_returns (n := 20) rfl⟩

end Verif.Props
