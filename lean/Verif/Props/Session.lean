import Verif.Spec.Session
import Verif.Props.Solver
import Verif.Props.Choice

/-!
# Property C89: the history of a parser
-/

set_option linter.unusedSectionVars false

namespace Verif.Props

open Verif.Spec Verif.Examples

variable {σ τ L T : Type} [DecidableEq T]

/-- **C89**, solvers that answer alike: let two solvers, with states of any kind, answer alike as long as their
states are related, and let them be related at first. Then both parsers return the same result, with related
states of the solvers, or both panic, or neither returns. -/
theorem C89_answers_alike (h h' : HashOrder T) (eps init : T) (ps : List (Production T))
    (g g' : Grammar T) (hg : Grammar.new h eps init ps = .ok g)
    (hg' : Grammar.new h' eps init ps = .ok g') (sv : Solver σ L T) (sv' : Solver τ L T)
    (R : σ → τ → Prop) (hR : AnswersAlike R sv sv')
    (p : Parser σ L T) (p' : Parser τ L T) (hp : Built h g (some sv) p) (hp' : Built h' g' (some sv') p')
    (tokens : List (Token L T)) (s : σ) (t : τ) (hst : R s t) :
    (∀ r s', Parses p tokens s r s' → ∃ t', Parses p' tokens t r t' ∧ R s' t') ∧
    (∀ r t', Parses p' tokens t r t' → ∃ s', Parses p tokens s r s' ∧ R s' t') ∧
    (ParsePanics p tokens s ↔ ParsePanics p' tokens t) ∧
    (ParseDiverges p tokens s ↔ ParseDiverges p' tokens t) := by
  have hs := (Parser.tableParser_of_built hg hp).2
  have hs' := (Parser.tableParser_of_built hg' hp').2
  have P := (Parser.tableParser_of_built hg hp).1.toParserOf
  obtain ⟨h1, h2, h3, h4⟩ := Parser.outcomes_of_sim (R := R) (s := s) (s' := t)
    (Parser.sim_of_fixSim P (Parser.agree_of_built hg hg' hp hp') (tokens := tokens) (by
      intro pos outs sg failed x _ _
      unfold Parser.tryFixProductions
      rw [hs, hs']
      simp only
      split
      · split
        · split
          · exact .panic _
          · exact hR.one tokens pos _
        · exact hR.many tokens pos _
      · exact .pure rfl)) hst
  refine ⟨h1, ?_, h3, h4⟩
  intro r t' hr
  obtain ⟨r', s1, hr', rfl, hR'⟩ := h2 r t' hr
  exact ⟨s1, hr', hR'⟩

/-- **C89**, sessions: the same for any number of parses, one after the other. -/
theorem C89_sessions_alike (h h' : HashOrder T) (eps init : T) (ps : List (Production T))
    (g g' : Grammar T) (hg : Grammar.new h eps init ps = .ok g)
    (hg' : Grammar.new h' eps init ps = .ok g') (sv : Solver σ L T) (sv' : Solver τ L T)
    (R : σ → τ → Prop) (hR : AnswersAlike R sv sv')
    (p : Parser σ L T) (p' : Parser τ L T) (hp : Built h g (some sv) p) (hp' : Built h' g' (some sv') p')
    (inputs : List (List (Token L T))) (out : List (Option (ParseResult L T))) (s s' : σ) (t : τ) (hst : R s t)
    (hses : Session p s inputs out s') (hret : ∀ o ∈ out, o.isSome) :
    ∃ t', Session p' t inputs out t' ∧ R s' t' := by
  induction hses generalizing t with
  | nil s => exact ⟨t, .nil t, hst⟩
  | returned hr _ ih =>
    obtain ⟨t1, hr', hR'⟩ := (C89_answers_alike h h' eps init ps g g' hg hg' sv sv' R hR p p' hp hp' _ _ _
      hst).1 _ _ hr
    obtain ⟨t', h1, h2⟩ := ih t1 hR' (fun o ho => hret o (by simp [ho]))
    exact ⟨t', .returned hr' h1, h2⟩
  | caught _ _ _ => exact absurd (hret none (by simp)) (by simp)

/-- **C89.** Let the answers of the solver not depend on its state (or let there be none). Then what a parser
did before, including parses that panicked, does not matter: each result in a session is the one that a new
parser, in whatever state its solver is, returns for that input, and so with the panics. -/
theorem C89_history (h h' : HashOrder T) (eps init : T) (ps : List (Production T))
    (g g' : Grammar T) (hg : Grammar.new h eps init ps = .ok g)
    (hg' : Grammar.new h' eps init ps = .ok g') (solver : Option (Solver σ L T))
    (hst : ∀ sv, solver = some sv → Stateless sv) (p p' : Parser σ L T) (hp : Built h g solver p)
    (hp' : Built h' g' solver p') (inputs : List (List (Token L T))) (out : List (Option (ParseResult L T)))
    (s s' : σ) (hses : Session p s inputs out s') :
    List.Forall₂ (fun tokens o => match o with
      | some r => ∀ s, ∃ s', Parses p' tokens s r s'
      | none => ∀ s, ParsePanics p' tokens s) inputs out := by
  have key : ∀ tokens s t, (∀ r s', Parses p tokens s r s' → ∃ t', Parses p' tokens t r t') ∧
      (ParsePanics p tokens s ↔ ParsePanics p' tokens t) := by
    intro tokens s t
    cases solver with
    | some sv =>
      obtain ⟨h1, _, h3, _⟩ := C89_answers_alike h h' eps init ps g g' hg hg' sv sv _ (hst sv rfl) p p' hp hp'
        tokens s t trivial
      exact ⟨fun r s' hr => (h1 r s' hr).imp fun _ h => h.1, h3⟩
    | none =>
      have hs := (Parser.tableParser_of_built hg hp).2
      have hs' := (Parser.tableParser_of_built hg' hp').2
      have P := (Parser.tableParser_of_built hg hp).1.toParserOf
      obtain ⟨h1, h2, h3, h4⟩ := Parser.outcomes_of_sim (R := fun _ _ => True) (s := s) (s' := t)
        (Parser.sim_of_fixSim P (Parser.agree_of_built hg hg' hp hp') (tokens := tokens) (by
          intro pos outs sg failed x _ _
          unfold Parser.tryFixProductions
          rw [hs, hs']
          exact .pure rfl)) trivial
      exact ⟨fun r s' hr => (h1 r s' hr).imp fun _ h => h.1, h3⟩
  induction hses with
  | nil => exact .nil
  | returned hr _ ih => exact .cons (fun t => (key _ _ t).1 _ _ hr) ih
  | caught hr _ ih => exact .cons (fun t => (key _ _ t).2.1 hr) ih

/-- A solver that skips the rest of the input, and counts its calls. -/
def skipCounting : Solver Nat Unit Nat where
  fixFailedProduction tokens _ _ := fun n => .ok (some ⟨tokens.length, .mk []⟩, n + 1)
  fixFailedProductions tokens _ _ := fun n => .ok (some ⟨tokens.length, .mk []⟩, n + 1)

/-- A solver that does so the first time only. -/
def skipOnce : Solver Nat Unit Nat where
  fixFailedProduction tokens _ _ := fun n =>
    .ok (if n = 0 then some ⟨tokens.length, .mk []⟩ else none, n + 1)
  fixFailedProductions tokens _ _ := fun n =>
    .ok (if n = 0 then some ⟨tokens.length, .mk []⟩ else none, n + 1)

theorem skipCounting_stateless : Stateless skipCounting :=
  ⟨fun _ _ _ _ n _ => ⟨n + 1, rfl, trivial⟩, fun _ _ _ _ n _ => ⟨n + 1, rfl, trivial⟩⟩

/-- The hypotheses of C89 are met, with a fix, a caught panic and the same fix again. -/
example : ∃ g p f, Grammar.new (HashOrder.id Nat) 0 1 [⟨1, [10, 11]⟩] = .ok g ∧
    Built (HashOrder.id Nat) g (some skipCounting) p ∧ Stateless skipCounting ∧
    Session p 0 [[⟨none, 10⟩, ⟨none, 10⟩], [], [⟨none, 10⟩, ⟨none, 10⟩]] [some (.fix f), none, some (.fix f)] 2 := by
  obtain ⟨g, p, f, hg, hp, h1, h2⟩ : ∃ g p f, Grammar.new (HashOrder.id Nat) 0 1 [⟨1, [10, 11]⟩] = .ok g ∧
      Built (HashOrder.id Nat) g (some skipCounting) p ∧
      Parses p [⟨none, 10⟩, ⟨none, 10⟩] 0 (.fix f) 1 ∧ Parses p [⟨none, 10⟩, ⟨none, 10⟩] 1 (.fix f) 2 :=
    ⟨_, _, _, rfl, Parser.built_of_eval_solver (n := 10) rfl, Parser.parse_returns (n := 20) rfl,
      Parser.parse_returns (n := 20) rfl⟩
  exact ⟨g, p, f, hg, hp, skipCounting_stateless, .returned h1 (.caught (C18_empty_input_panics p 1)
    (.returned h2 (.nil 2)))⟩

/-- Without the hypothesis the history does matter: this solver fixes the input the first time only. -/
theorem C89_history_can_matter : ∃ g p f f', Grammar.new (HashOrder.id Nat) 0 1 [⟨1, [10, 11]⟩] = .ok g ∧
    Built (HashOrder.id Nat) g (some skipOnce) p ∧
    Session p 0 [[⟨none, 10⟩, ⟨none, 10⟩], [⟨none, 10⟩, ⟨none, 10⟩]] [some (.fix f), some (.err f')] 2 := by
  obtain ⟨g, p, f, f', hg, hp, h1, h2⟩ : ∃ g p f f', Grammar.new (HashOrder.id Nat) 0 1 [⟨1, [10, 11]⟩] = .ok g ∧
      Built (HashOrder.id Nat) g (some skipOnce) p ∧
      Parses p [⟨none, 10⟩, ⟨none, 10⟩] 0 (.fix f) 1 ∧ Parses p [⟨none, 10⟩, ⟨none, 10⟩] 1 (.err f') 2 :=
    ⟨_, _, _, _, rfl, Parser.built_of_eval_solver (n := 10) rfl, Parser.parse_returns (n := 20) rfl,
      Parser.parse_returns (n := 20) rfl⟩
  exact ⟨g, p, f, f', hg, hp, .returned h1 (.returned h2 (.nil 2))⟩

end Verif.Props
