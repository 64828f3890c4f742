import Verif.Proof.NotAsked
import Verif.Props.CallOrder
import Verif.Props.Solver

/-!
# Property C29: when a solver cannot change an accepted input
-/

set_option linter.unusedSectionVars false

namespace Verif.Props

open Verif.Spec Verif.Examples

variable {σ τ L T : Type} [DecidableEq T]

/-- Transfer of a run in which the solver is not asked to another solver. -/
theorem parses_of_notAsked {h h' : HashOrder T} {eps init : T} {ps : List (Production T)}
    {g g' : Grammar T} (hg : Grammar.new h eps init ps = .ok g)
    (hg' : Grammar.new h' eps init ps = .ok g') {solver : Option (Solver σ L T)} {p : Parser σ L T}
    (hp : Built h g solver p) {solver' : Option (Solver τ L T)} {p' : Parser τ L T}
    (hp' : Built h' g' solver' p') {tokens : List (Token L T)} {A : σ → Prop}
    (hA : ∀ pos fps s o s', Recovery.answer solver tokens pos true fps s = .ok (o, s') → ¬ A s')
    {s s' : σ} {r : ParseResult L T} (hr : Parses p tokens s r s') (hs : A s') (t : τ) :
    Parses p' tokens t r t := by
  cases tokens with
  | nil =>
    obtain ⟨n, hn⟩ := Parser.parses_at hr
    simp [Parser.parseFromTokens] at hn
  | cons tok ts =>
    have P := (Parser.tableParser_of_built hg hp).1.toParserOf
    have P' := (Parser.tableParser_of_built hg' hp').1.toParserOf
    have ag := Parser.agree_of_built hg hg' hp hp'
    obtain ⟨o, ho, hres⟩ := ((Parser.Recovery.parse_iff_choice P tok ts s).1 _ _).1 hr
    rw [(Parser.tableParser_of_built hg hp).2] at ho
    refine ((Parser.Recovery.parse_iff_choice P' tok ts t).1 _ _).2
      ⟨Parser.Recovery.setState t o, ?_, ?_⟩
    · have hin : Parser.Recovery.InState A o := by
        match o, hres with
        | .found (.node _ _ _) _, hres =>
          simp only [Recovery.result, Option.some.injEq, Prod.mk.injEq] at hres
          obtain ⟨_, rfl⟩ := hres
          exact hs
        | .found (.fixed _ _) _, hres =>
          simp only [Recovery.result, Option.some.injEq, Prod.mk.injEq] at hres
          obtain ⟨_, rfl⟩ := hres
          exact hs
        | .failed f _, hres =>
          simp only [Recovery.result, Option.some.injEq, Prod.mk.injEq] at hres
          obtain ⟨_, rfl⟩ := hres
          exact hs
        | .panicked, hres => simp [Recovery.result] at hres
      have := (Parser.Recovery.choice_notAsked solver' t hA ho hin).2
      rw [(Parser.tableParser_of_built hg' hp').2]
      have hc : p'.getTokenProductions = p.getTokenProductions := by
        funext x a
        exact ag.cand_eq x a
      rwa [hc]
    · match o, hres with
      | .found (.node _ _ _) _, hres =>
        simp only [Recovery.result, Option.some.injEq, Prod.mk.injEq] at hres
        obtain ⟨rfl, rfl⟩ := hres
        rfl
      | .found (.fixed _ _) _, hres =>
        simp only [Recovery.result, Option.some.injEq, Prod.mk.injEq] at hres
        obtain ⟨rfl, rfl⟩ := hres
        rfl
      | .failed f _, hres =>
        simp only [Recovery.result, Option.some.injEq, Prod.mk.injEq] at hres
        obtain ⟨rfl, rfl⟩ := hres
        rfl
      | .panicked, hres => simp [Recovery.result] at hres

theorem logCalls_not_nil (sv : Solver σ L T) {tokens : List (Token L T)} (pos fps s o s')
    (e : Recovery.answer (some (logCalls sv)) tokens pos true fps s = .ok (o, s')) : ¬ s'.2 = [] := by
  obtain ⟨s, log⟩ := s
  match fps, e with
  | [fp], e =>
    simp only [Recovery.answer, logCalls] at e
    split at e <;> simp only [Out.ok.injEq, Prod.mk.injEq, reduceCtorEq] at e
    obtain ⟨_, rfl⟩ := e
    simp
  | [], e =>
    simp only [Recovery.answer, logCalls] at e
    split at e <;> simp only [Out.ok.injEq, Prod.mk.injEq, reduceCtorEq] at e
    obtain ⟨_, rfl⟩ := e
    simp
  | _ :: _ :: _, e =>
    simp only [Recovery.answer, logCalls] at e
    split at e <;> simp only [Out.ok.injEq, Prod.mk.injEq, reduceCtorEq] at e
    obtain ⟨_, rfl⟩ := e
    simp

/-- **C29**, the general form of what is true: if a run with some solver ends without a call of it, the
run with any other solver, or without one, gives the same result, and does not call that solver either. -/
theorem C29_not_asked_partial (h h' : HashOrder T) (eps init : T) (ps : List (Production T))
    (g g' : Grammar T) (hg : Grammar.new h eps init ps = .ok g)
    (hg' : Grammar.new h' eps init ps = .ok g') (sv : Solver σ L T)
    (p : Parser (σ × List (LoggedCall L T)) L T) (hp : Built h g (some (logCalls sv)) p)
    (solver' : Option (Solver τ L T)) (p' : Parser τ L T) (hp' : Built h' g' solver' p')
    (tokens : List (Token L T)) (s s' : σ) (r : ParseResult L T)
    (hr : Parses p tokens (s, []) r (s', [])) (t : τ) : Parses p' tokens t r t :=
  parses_of_notAsked hg hg' hp hp' (A := fun s => s.2 = []) (logCalls_not_nil sv) hr rfl t

/-- The solver that always declines. -/
def neverFix : Solver Unit L T where
  fixFailedProduction _ _ _ := pure none
  fixFailedProductions _ _ _ := pure none

/-- A solver that panics when it is called. -/
def panicFix : Solver Unit L T where
  fixFailedProduction _ _ _ := fun _ => .panic .unwrapNone
  fixFailedProductions _ _ _ := fun _ => .panic .unwrapNone

/-- **C29**, exactly: the parser without a solver accepts the input with `tree`. Then the parser with
every solver accepts it with `tree` if and only if the solver that always declines is never called. -/
theorem C29_exact (h : HashOrder T) (eps init : T) (ps : List (Production T)) (g : Grammar T)
    (hg : Grammar.new h eps init ps = .ok g) (p : Parser σ L T) (hp : Built h g none p)
    (tokens : List (Token L T)) (s s1 : σ) (tree : Tree L T) (hr : Parses p tokens s (.ok tree) s1) :
    (∀ (τ : Type) (sv : Solver τ L T) (p' : Parser τ L T), Built h g (some sv) p' →
      ∀ t, ∃ t', Parses p' tokens t (.ok tree) t') ↔
    ∃ pd r, Built h g (some (logCalls neverFix)) pd ∧ Parses pd tokens ((), []) r ((), []) := by
  constructor
  · intro H
    obtain ⟨pp, hpp⟩ := Parser.built_exists hg (some (panicFix (L := L) (T := T)))
    obtain ⟨pd, hpd⟩ := Parser.built_exists hg (some (logCalls (neverFix (L := L) (T := T))))
    obtain ⟨t', ht⟩ := H _ _ pp hpp ()
    refine ⟨pd, _, hpd, parses_of_notAsked hg hg hpp hpd (A := fun _ => True) ?_ ht trivial _⟩
    intro pos fps s o s' e
    match fps, e with
    | [fp], e => simp [Recovery.answer, panicFix] at e
    | [], e => simp [Recovery.answer, panicFix] at e
    | _ :: _ :: _, e => simp [Recovery.answer, panicFix] at e
  · rintro ⟨pd, r, hpd, hd⟩ τ sv p' hp' t
    have h1 := C29_not_asked_partial h h eps init ps g g hg hg neverFix pd hpd none p hp tokens () () r
      hd s
    obtain ⟨rfl, _⟩ := Parser.Parses.det hr h1
    exact ⟨t, C29_not_asked_partial h h eps init ps g g hg hg neverFix pd hpd (some sv) p' hp' tokens
      () () _ hd t⟩

/-- Both sides of `C29_exact` can be true: `id + id $` in the expression grammar of the examples is accepted
with the solver that always declines, and the log stays empty. The hypotheses of `C29_not_asked_partial`
are met by the same run. -/
example : ∃ g p pd tree,
    Grammar.new (HashOrder.id Nat) 0 1 exprPs = .ok g ∧
    Built (σ := Unit) (L := Unit) (HashOrder.id Nat) g none p ∧
    Built (HashOrder.id Nat) g (some (logCalls neverFix)) pd ∧
    Parses p [⟨none, 15⟩, ⟨none, 11⟩, ⟨none, 15⟩, ⟨none, 16⟩] () (.ok tree) () ∧
    Parses pd [⟨none, 15⟩, ⟨none, 11⟩, ⟨none, 15⟩, ⟨none, 16⟩] ((), []) (.ok tree) ((), []) :=
  ⟨_, _, _, _, rfl, Parser.built_of_eval (n := 10) rfl, Parser.built_of_eval_solver (n := 10) rfl,
    Parser.parse_returns (n := 60) rfl, Parser.parse_returns (n := 60) rfl⟩

/-- And both can be false: `S → C B`, `C → a | a a`, `B → b` on `a a b` is accepted without a solver; the
solver that always declines is called once, and `skipOne` gets `Fix`. -/
example : ∃ g p pd p' tree c f,
    Grammar.new (HashOrder.id Nat) 0 1 [⟨1, [2, 3]⟩, ⟨2, [10]⟩, ⟨2, [10, 10]⟩, ⟨3, [11]⟩] = .ok g ∧
    Built (σ := Unit) (L := Unit) (HashOrder.id Nat) g none p ∧
    Built (HashOrder.id Nat) g (some (logCalls neverFix)) pd ∧
    Built (HashOrder.id Nat) g (some skipOne) p' ∧
    Parses p [⟨none, 10⟩, ⟨none, 10⟩, ⟨none, 11⟩] () (.ok tree) () ∧
    Parses pd [⟨none, 10⟩, ⟨none, 10⟩, ⟨none, 11⟩] ((), []) (.ok tree) ((), [c]) ∧
    Parses p' [⟨none, 10⟩, ⟨none, 10⟩, ⟨none, 11⟩] () (.fix f) () :=
  ⟨_, _, _, _, _, _, _, rfl, Parser.built_of_eval (n := 10) rfl,
    Parser.built_of_eval_solver (n := 10) rfl, Parser.built_of_eval_solver (n := 10) rfl,
    Parser.parse_returns (n := 30) rfl, Parser.parse_returns (n := 30) rfl,
    Parser.parse_returns (n := 30) rfl⟩

end Verif.Props
