import Verif.Spec.Combine
import Verif.Props.Session
import Verif.Proof.SolverFollows

/-!
# Property C90: combining solvers
-/

set_option linter.unusedSectionVars false

namespace Verif.Props

open Verif.Spec Verif.Examples

variable {σ τ υ L T : Type} [DecidableEq T]

section Calls

variable {α : Type}

theorem callsAlike_declined_first {call : M σ (Option α)} (hc : ∀ s, ∃ s', call s = .ok (none, s'))
    (call' : M τ (Option α)) :
    CallsAlike (fun (u : σ × τ) t => u.2 = t) (firstOf call call') call' := by
  rintro ⟨s, t⟩ _ rfl
  obtain ⟨s1, e⟩ := hc s
  simp only [firstOf, e]
  cases e' : call' t with
  | ok a => exact ⟨_, rfl, rfl⟩
  | panic e => rfl
  | fuel => rfl

theorem callsAlike_declined_second {call' : M τ (Option α)} (hc : ∀ t, ∃ t', call' t = .ok (none, t'))
    (call : M σ (Option α)) :
    CallsAlike (fun (u : σ × τ) s => u.1 = s) (firstOf call call') call := by
  rintro ⟨s, t⟩ _ rfl
  simp only [firstOf]
  cases e : call s with
  | ok a =>
    obtain ⟨o, s1⟩ := a
    cases o with
    | some a => exact ⟨_, rfl, rfl⟩
    | none =>
      obtain ⟨t1, e'⟩ := hc t
      rw [e']
      exact ⟨_, rfl, rfl⟩
  | panic e => rfl
  | fuel => rfl

theorem callsAlike_assoc (c1 : M σ (Option α)) (c2 : M τ (Option α)) (c3 : M υ (Option α)) :
    CallsAlike (fun (u : (σ × τ) × υ) (v : σ × τ × υ) => v = (u.1.1, u.1.2, u.2))
      (firstOf (firstOf c1 c2) c3) (firstOf c1 (firstOf c2 c3)) := by
  rintro ⟨⟨s, t⟩, u⟩ _ rfl
  simp only [firstOf]
  rcases c1 s with ⟨_ | _, s1⟩ | _ | _
  · rcases c2 t with ⟨_ | _, t1⟩ | _ | _
    · rcases c3 u with ⟨o, u1⟩ | _ | _
      · exact ⟨_, rfl, rfl⟩
      · rfl
      · rfl
    · exact ⟨_, rfl, rfl⟩
    · rfl
    · rfl
  · exact ⟨_, rfl, rfl⟩
  · rfl
  · rfl

end Calls

/-- **C90**, a solver that declines is a unit: combined with a solver that always declines, before or behind it, a
solver gives the results, panics and divergences it gives alone, and its state ends up the same. -/
theorem C90_unit (h h' : HashOrder T) (eps init : T) (ps : List (Production T)) (g g' : Grammar T)
    (hg : Grammar.new h eps init ps = .ok g) (hg' : Grammar.new h' eps init ps = .ok g')
    (sv : Solver σ L T) (dec : Solver τ L T) (hdec : Declines dec)
    (p : Parser σ L T) (hp : Built h g (some sv) p)
    (pl : Parser (τ × σ) L T) (hpl : Built h' g' (some (orElse dec sv)) pl)
    (pr : Parser (σ × τ) L T) (hpr : Built h' g' (some (orElse sv dec)) pr)
    (tokens : List (Token L T)) (s : σ) (t : τ) :
    (∀ r s', Parses p tokens s r s' ↔ ∃ t', Parses pl tokens (t, s) r (t', s')) ∧
    (∀ r s', Parses p tokens s r s' ↔ ∃ t', Parses pr tokens (s, t) r (s', t')) ∧
    (ParsePanics p tokens s ↔ ParsePanics pl tokens (t, s)) ∧
    (ParsePanics p tokens s ↔ ParsePanics pr tokens (s, t)) ∧
    (ParseDiverges p tokens s ↔ ParseDiverges pl tokens (t, s)) ∧
    (ParseDiverges p tokens s ↔ ParseDiverges pr tokens (s, t)) := by
  have hl : AnswersAlike (fun (u : τ × σ) s => u.2 = s) (orElse dec sv) sv :=
    ⟨fun tokens pos f => callsAlike_declined_first (fun s => hdec.1 tokens pos f s) _,
      fun tokens pos fs => callsAlike_declined_first (fun s => hdec.2 tokens pos fs s) _⟩
  have hr : AnswersAlike (fun (u : σ × τ) s => u.1 = s) (orElse sv dec) sv :=
    ⟨fun tokens pos f => callsAlike_declined_second (fun s => hdec.1 tokens pos f s) _,
      fun tokens pos fs => callsAlike_declined_second (fun s => hdec.2 tokens pos fs s) _⟩
  obtain ⟨a1, a2, a3, a4⟩ := C89_answers_alike h' h eps init ps g' g hg' hg _ _ _ hl pl p hpl hp tokens (t, s) s rfl
  obtain ⟨b1, b2, b3, b4⟩ := C89_answers_alike h' h eps init ps g' g hg' hg _ _ _ hr pr p hpr hp tokens (s, t) s rfl
  refine ⟨fun r s' => ⟨fun e => ?_, ?_⟩, fun r s' => ⟨fun e => ?_, ?_⟩, a3.symm, b3.symm, a4.symm, b4.symm⟩
  · obtain ⟨⟨t', s1⟩, e', rfl⟩ := a2 r s' e
    exact ⟨t', e'⟩
  · rintro ⟨t', e⟩
    obtain ⟨s1, e', rfl⟩ := a1 r _ e
    exact e'
  · obtain ⟨⟨s1, t'⟩, e', rfl⟩ := b2 r s' e
    exact ⟨t', e'⟩
  · rintro ⟨t', e⟩
    obtain ⟨s1, e', rfl⟩ := b1 r _ e
    exact e'

/-- **C90**, three solvers: it does not matter which two are combined first. -/
theorem C90_associative (h h' : HashOrder T) (eps init : T) (ps : List (Production T)) (g g' : Grammar T)
    (hg : Grammar.new h eps init ps = .ok g) (hg' : Grammar.new h' eps init ps = .ok g')
    (sv1 : Solver σ L T) (sv2 : Solver τ L T) (sv3 : Solver υ L T)
    (p : Parser ((σ × τ) × υ) L T) (hp : Built h g (some (orElse (orElse sv1 sv2) sv3)) p)
    (p' : Parser (σ × τ × υ) L T) (hp' : Built h' g' (some (orElse sv1 (orElse sv2 sv3))) p')
    (tokens : List (Token L T)) (s : σ) (t : τ) (u : υ) :
    (∀ r s' t' u', Parses p tokens ((s, t), u) r ((s', t'), u') ↔ Parses p' tokens (s, t, u) r (s', t', u')) ∧
    (ParsePanics p tokens ((s, t), u) ↔ ParsePanics p' tokens (s, t, u)) ∧
    (ParseDiverges p tokens ((s, t), u) ↔ ParseDiverges p' tokens (s, t, u)) := by
  obtain ⟨a1, a2, a3, a4⟩ := C89_answers_alike h h' eps init ps g g' hg hg' _ _ _
    (⟨fun _ _ _ => callsAlike_assoc _ _ _, fun _ _ _ => callsAlike_assoc _ _ _⟩ :
      AnswersAlike (fun (u : (σ × τ) × υ) (v : σ × τ × υ) => v = (u.1.1, u.1.2, u.2))
        (orElse (orElse sv1 sv2) sv3) (orElse sv1 (orElse sv2 sv3)))
    p p' hp hp' tokens ((s, t), u) (s, t, u) rfl
  refine ⟨fun r s' t' u' => ⟨fun e => ?_, fun e => ?_⟩, a3, a4⟩
  · obtain ⟨_, e', rfl⟩ := a1 r _ e
    exact e'
  · obtain ⟨⟨⟨s1, t1⟩, u1⟩, e', he⟩ := a2 r _ e
    simp only [Prod.mk.injEq] at he
    obtain ⟨rfl, rfl, rfl⟩ := he
    exact e'

theorem follows_second_unused {call : M σ (Option (FixResult L T))}
    {call' : M τ (Option (FixResult L T))} {pos : Nat} {fs : List (FailedProduction L T)} (t0 : τ) :
    Parser.Follows (fun u : σ × List (RecordedCall L T) => ∀ c ∈ u.2, c.answer.isSome)
      (fun u v => v = (u.1, t0))
      (fun (s, log) => match call s with
        | .ok (o, s') => .ok (o, (s', log ++ [⟨pos, fs, o⟩]))
        | .panic e => .panic e
        | .fuel => .fuel) (firstOf call call') := by
  rintro ⟨s, log⟩ o ⟨s', log'⟩ e hgood
  simp only at e hgood
  cases hc : call s with
  | panic e' => rw [hc] at e; simp at e
  | fuel => rw [hc] at e; simp at e
  | ok a =>
    obtain ⟨o1, s1⟩ := a
    rw [hc] at e
    simp only [Out.ok.injEq, Prod.mk.injEq] at e
    obtain ⟨rfl, rfl, rfl⟩ := e
    refine ⟨fun c hc' => hgood c (by simp [hc']), ?_⟩
    rintro _ rfl
    have := hgood ⟨pos, fs, o1⟩ (by simp)
    obtain ⟨a, rfl⟩ := Option.isSome_iff_exists.1 this
    exact ⟨(s1, t0), by simp [firstOf, hc], rfl⟩

/-- **C90**, the second is not needed: if the first solver fixes whatever it is asked during a parse, combined with
any other solver it gives the same result, and the other is not called. -/
theorem C90_second_unused (h h' : HashOrder T) (eps init : T) (ps : List (Production T)) (g g' : Grammar T)
    (hg : Grammar.new h eps init ps = .ok g) (hg' : Grammar.new h' eps init ps = .ok g')
    (sv : Solver σ L T) (sv' : Solver τ L T)
    (p : Parser (σ × List (RecordedCall L T)) L T) (hp : Built h g (some (recordCalls sv)) p)
    (p' : Parser (σ × τ) L T) (hp' : Built h' g' (some (orElse sv sv')) p')
    (tokens : List (Token L T)) (s s' : σ) (r : ParseResult L T) (log : List (RecordedCall L T))
    (hr : Parses p tokens (s, []) r (s', log)) (hfix : ∀ c ∈ log, c.answer.isSome) (t : τ) :
    Parses p' tokens (s, t) r (s', t) := by
  obtain ⟨n, hn⟩ := Parser.parses_at hr
  obtain ⟨_, e, rfl⟩ := (Parser.parseFromTokens_follows (Parser.agree_of_built hg hg' hp hp')
    (Parser.tableParser_of_built hg hp).2 (Parser.tableParser_of_built hg' hp').2
    ⟨fun _ _ _ => follows_second_unused t,
      fun _ _ _ => follows_second_unused t⟩ tokens n _ _ _ hn hfix).2 (s, t) rfl
  exact Parser.parse_returns e

theorem follows_second_declined {call : M σ (Option (FixResult L T))}
    {call' : M τ (Option (FixResult L T))} {pos : Nat} {fs : List (FailedProduction L T)} :
    Parser.Follows (fun u : σ × τ × List (RecordedCall L T) => ∀ c ∈ u.2.2, c.answer = none)
      (fun u v => v = u.1)
      (firstOf call (fun (t, log) => match call' t with
        | .ok (o, t') => .ok (o, (t', log ++ [⟨pos, fs, o⟩]))
        | .panic e => .panic e
        | .fuel => .fuel)) call := by
  rintro ⟨s, t, log⟩ o ⟨s', t', log'⟩ e hgood
  simp only [firstOf] at e hgood
  cases hc : call s with
  | panic e' => rw [hc] at e; simp at e
  | fuel => rw [hc] at e; simp at e
  | ok a =>
    obtain ⟨o1, s1⟩ := a
    rw [hc] at e
    cases o1 with
    | some a =>
      simp only [Out.ok.injEq, Prod.mk.injEq] at e
      obtain ⟨rfl, rfl, rfl, rfl⟩ := e
      refine ⟨hgood, ?_⟩
      rintro _ rfl
      exact ⟨_, hc, rfl⟩
    | none =>
      simp only at e
      cases hc' : call' t with
      | panic e' => rw [hc'] at e; simp at e
      | fuel => rw [hc'] at e; simp at e
      | ok a =>
        obtain ⟨o2, t2⟩ := a
        rw [hc'] at e
        simp only [Out.ok.injEq, Prod.mk.injEq] at e
        obtain ⟨rfl, rfl, rfl, rfl⟩ := e
        refine ⟨fun c hc' => hgood c (by simp [hc']), ?_⟩
        rintro _ rfl
        have := hgood ⟨pos, fs, o2⟩ (by simp)
        simp only at this
        subst this
        exact ⟨_, hc, rfl⟩

/-- **C90**, the second declines: if the second solver declines whatever it is asked during a parse, the first one
alone gives the same result. -/
theorem C90_second_declined (h h' : HashOrder T) (eps init : T) (ps : List (Production T)) (g g' : Grammar T)
    (hg : Grammar.new h eps init ps = .ok g) (hg' : Grammar.new h' eps init ps = .ok g')
    (sv : Solver σ L T) (sv' : Solver τ L T)
    (p : Parser (σ × τ × List (RecordedCall L T)) L T) (hp : Built h g (some (orElse sv (recordCalls sv'))) p)
    (p' : Parser σ L T) (hp' : Built h' g' (some sv) p')
    (tokens : List (Token L T)) (s s' : σ) (t t' : τ) (r : ParseResult L T) (log : List (RecordedCall L T))
    (hr : Parses p tokens (s, t, []) r (s', t', log)) (hnone : ∀ c ∈ log, c.answer = none) :
    Parses p' tokens s r s' := by
  obtain ⟨n, hn⟩ := Parser.parses_at hr
  obtain ⟨_, e, rfl⟩ := (Parser.parseFromTokens_follows (Parser.agree_of_built hg hg' hp hp')
    (Parser.tableParser_of_built hg hp).2 (Parser.tableParser_of_built hg' hp').2
    ⟨fun _ _ _ => follows_second_declined, fun _ _ _ => follows_second_declined⟩ tokens n _ _ _ hn hnone).2 s rfl
  exact Parser.parse_returns e

/-- Skips the rest of the input if one production failed, declines if there were none or several. -/
def skipSole : Solver Nat Unit Nat where
  fixFailedProduction tokens _ _ := fun n => .ok (some ⟨tokens.length, .mk []⟩, n + 1)
  fixFailedProductions _ _ _ := fun n => .ok (none, n + 1)

/-- The other way round. -/
def skipSeveral : Solver Nat Unit Nat where
  fixFailedProduction _ _ _ := fun n => .ok (none, n + 1)
  fixFailedProductions tokens _ _ := fun n => .ok (some ⟨tokens.length, .mk []⟩, n + 1)

/-- The hypotheses of C90 are met: `S → a B`, `B → b` on `a c`: the first solver fixes what it is asked; and the
second one declines. -/
example : ∃ g p p' f log log', Grammar.new (HashOrder.id Nat) 0 1 [⟨1, [10, 2]⟩, ⟨2, [11]⟩] = .ok g ∧
    Built (HashOrder.id Nat) g (some (recordCalls skipCounting)) p ∧
    Parses p [⟨none, 10⟩, ⟨none, 12⟩] (0, []) (.fix f) (1, log) ∧ log.length = 1 ∧
    (∀ c ∈ log, c.answer.isSome) ∧
    Built (HashOrder.id Nat) g (some (orElse skipSole (recordCalls countingSolver))) p' ∧
    (∃ f', Parses p' [⟨none, 10⟩, ⟨none, 12⟩] (0, 0, []) (.fix f') (2, 1, log')) ∧ log'.length = 1 ∧
    (∀ c ∈ log', c.answer = none) ∧ Declines countingSolver := by
  obtain ⟨g, p, p', f, f', log, log', hg, hp, hr, hl, h1, hp', hr', hl', h2⟩ : ∃ g p p' f f' log log',
      Grammar.new (HashOrder.id Nat) 0 1 [⟨1, [10, 2]⟩, ⟨2, [11]⟩] = .ok g ∧
      Built (HashOrder.id Nat) g (some (recordCalls skipCounting)) p ∧
      Parses p [⟨none, 10⟩, ⟨none, 12⟩] (0, []) (.fix f) (1, log) ∧ log.length = 1 ∧
      log.all (fun c => c.answer.isSome) = true ∧
      Built (HashOrder.id Nat) g (some (orElse skipSole (recordCalls countingSolver))) p' ∧
      Parses p' [⟨none, 10⟩, ⟨none, 12⟩] (0, 0, []) (.fix f') (2, 1, log') ∧ log'.length = 1 ∧
      log'.all (fun c => c.answer.isNone) = true :=
    ⟨_, _, _, _, _, _, _, rfl, Parser.built_of_eval_solver (n := 10) rfl, Parser.parse_returns (n := 20) rfl, rfl, rfl,
      Parser.built_of_eval_solver (n := 10) rfl, Parser.parse_returns (n := 20) rfl, rfl, rfl⟩
  exact ⟨g, p, p', f, log, log', hg, hp, hr, hl, by simpa using h1, hp', ⟨f', hr'⟩, hl', by simpa using h2,
    ⟨fun _ _ _ s => ⟨s + 1, rfl⟩, fun _ _ _ s => ⟨s + 1, rfl⟩⟩⟩

/-- A second solver that fixes something can change what the first one would have done, also if the parse with the
first one alone ends with a fix: the failure inside is offered to the second before the enclosing one is offered to
the first. -/
theorem C90_second_can_interfere : ∃ g p p' f f', Grammar.new (HashOrder.id Nat) 0 1 [⟨1, [10, 2]⟩, ⟨2, [11]⟩] = .ok g ∧
    Built (HashOrder.id Nat) g (some skipSole) p ∧ Built (HashOrder.id Nat) g (some (orElse skipSole skipSeveral)) p' ∧
    Parses p [⟨none, 10⟩, ⟨none, 12⟩] 0 (.fix f) 2 ∧ f.fixedProduction.fixedParts = [] ∧
    Parses p' [⟨none, 10⟩, ⟨none, 12⟩] (0, 0) (.fix f') (1, 1) ∧ f'.fixedProduction.fixedParts.length = 2 :=
  ⟨_, _, _, _, _, rfl, Parser.built_of_eval_solver (n := 10) rfl, Parser.built_of_eval_solver (n := 10) rfl,
    Parser.parse_returns (n := 20) rfl, rfl, Parser.parse_returns (n := 20) rfl, rfl⟩

end Verif.Props
