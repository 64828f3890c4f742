import Verif.Proof.Replay
import Verif.Props.CallOrder

/-!
# Property C79: record and replay
-/

set_option linter.unusedSectionVars false

namespace Verif.Props

open Verif.Spec Verif.Examples

variable {σ τ L T : Type} [DecidableEq T]

/-- Recording does not change what the parser does. -/
theorem C79_recording_is_transparent (h h' : HashOrder T) (eps init : T) (ps : List (Production T))
    (g g' : Grammar T) (hg : Grammar.new h eps init ps = .ok g)
    (hg' : Grammar.new h' eps init ps = .ok g') (sv : Solver σ L T) (p : Parser σ L T)
    (hp : Built h g (some sv) p) (p' : Parser (σ × List (RecordedCall L T)) L T)
    (hp' : Built h' g' (some (recordCalls sv)) p') (tokens : List (Token L T)) (s : σ)
    (log : List (RecordedCall L T)) :
    (∀ r s', Parses p tokens s r s' ↔ ∃ log', Parses p' tokens (s, log) r (s', log')) ∧
    (ParsePanics p tokens s ↔ ParsePanics p' tokens (s, log)) ∧
    (ParseDiverges p tokens s ↔ ParseDiverges p' tokens (s, log)) := by
  have hs := (Parser.tableParser_of_built hg hp).2
  have hs' := (Parser.tableParser_of_built hg' hp').2
  have P := (Parser.tableParser_of_built hg hp).1.toParserOf
  obtain ⟨h1, h2, h3, h4⟩ := Parser.outcomes_of_sim
    (R := fun (s : σ) (u : σ × List (RecordedCall L T)) => u.1 = s) (s := s)
    (s' := (s, log)) (φ := id)
    (Parser.sim_of_fixSim P (Parser.agree_of_built hg hg' hp hp') (tokens := tokens) (by
      intro pos outs sg failed x _ _
      have h1 (f) : Sim (fun (s : σ) (u : σ × List (RecordedCall L T)) => u.1 = s) id
          (sv.fixFailedProduction tokens pos f)
          ((recordCalls sv).fixFailedProduction tokens pos f) := by
        rintro s ⟨u, m⟩ rfl
        simp only [recordCalls]
        cases sv.fixFailedProduction tokens pos f u with
        | ok a => exact ⟨_, rfl, rfl⟩
        | panic e => rfl
        | fuel => rfl
      have h2 : Sim (fun (s : σ) (u : σ × List (RecordedCall L T)) => u.1 = s) id
          (sv.fixFailedProductions tokens pos failed)
          ((recordCalls sv).fixFailedProductions tokens pos failed) := by
        rintro s ⟨u, m⟩ rfl
        simp only [recordCalls]
        cases sv.fixFailedProductions tokens pos failed u with
        | ok a => exact ⟨_, rfl, rfl⟩
        | panic e => rfl
        | fuel => rfl
      unfold Parser.tryFixProductions
      rw [hs, hs']
      cases sg with
      | false => exact fun s u e => ⟨_, rfl, e⟩
      | true =>
        cases Parser.isChildSinglePath true outs with
        | false => exact h2
        | true =>
          cases failed[0]? with
          | none => exact fun s u e => rfl
          | some f => exact h1 f)) rfl
  refine ⟨?_, h3, h4⟩
  intro r s'
  constructor
  · intro hr
    obtain ⟨⟨s1, n1⟩, hr', hs1⟩ := h1 r s' hr
    simp only at hs1
    subst hs1
    exact ⟨n1, hr'⟩
  · rintro ⟨n', hr⟩
    obtain ⟨r', s1, hr', rfl, hs1⟩ := h2 r (s', n') hr
    simp only at hs1
    subst hs1
    exact hr'

theorem parses_of_playsBack {h h' : HashOrder T} {eps init : T} {ps : List (Production T)}
    {g g' : Grammar T} (hg : Grammar.new h eps init ps = .ok g)
    (hg' : Grammar.new h' eps init ps = .ok g') {sv : Solver σ L T}
    {p : Parser (σ × List (RecordedCall L T)) L T} (hp : Built h g (some (recordCalls sv)) p)
    {sv' : Solver τ L T} {p' : Parser τ L T} (hp' : Built h' g' (some sv') p')
    {tokens : List (Token L T)} {St : List (RecordedCall L T) → List (RecordedCall L T) → τ}
    (hS : Parser.Recovery.PlaysBack sv' tokens St) {s s' : σ} {r : ParseResult L T}
    {log : List (RecordedCall L T)} (hr : Parses p tokens (s, []) r (s', log))
    (tail past : List (RecordedCall L T)) :
    Parses p' tokens (St (log ++ tail) past) r (St tail (past ++ log)) := by
  cases tokens with
  | nil =>
    obtain ⟨n, hn⟩ := Parser.parses_at hr
    simp [Parser.parseFromTokens] at hn
  | cons tok ts =>
    have P := (Parser.tableParser_of_built hg hp).1.toParserOf
    have P' := (Parser.tableParser_of_built hg' hp').1.toParserOf
    have ag := Parser.agree_of_built hg hg' hp hp'
    have hc : p'.getTokenProductions = p.getTokenProductions := by
      funext x a
      exact ag.cand_eq x a
    obtain ⟨o, ho, hres⟩ := ((Parser.Recovery.parse_iff_choice P tok ts (s, [])).1 _ _).1 hr
    rw [(Parser.tableParser_of_built hg hp).2] at ho
    refine ((Parser.Recovery.parse_iff_choice P' tok ts _).1 _ _).2
      ⟨Parser.Recovery.setState (St tail (past ++ log)) o, ?_, ?_⟩
    · have hcalm : Parser.Recovery.Calm o := by
        match o, hres with
        | .found _ _, _ => trivial
        | .failed _ _, _ => trivial
        | .panicked, hres => simp [Recovery.result] at hres
      obtain ⟨new, h1, h2⟩ := Parser.Recovery.choice_replay hS ho hcalm
      have hnew : new = log := by
        match o, h1, hres with
        | .found (.node _ _ _) _, h1, hres =>
          simp only [Recovery.result, Option.some.injEq, Prod.mk.injEq] at hres
          obtain ⟨_, rfl⟩ := hres
          exact h1.symm
        | .found (.fixed _ _) _, h1, hres =>
          simp only [Recovery.result, Option.some.injEq, Prod.mk.injEq] at hres
          obtain ⟨_, rfl⟩ := hres
          exact h1.symm
        | .failed f _, h1, hres =>
          simp only [Recovery.result, Option.some.injEq, Prod.mk.injEq] at hres
          obtain ⟨_, rfl⟩ := hres
          exact h1.symm
      subst hnew
      rw [(Parser.tableParser_of_built hg' hp').2, hc]
      exact h2 tail past
    · match o, hres with
      | .found (.node _ _ _) _, hres =>
        simp only [Recovery.result, Option.some.injEq, Prod.mk.injEq] at hres
        obtain ⟨rfl, rfl⟩ := hres
        rfl
      | .found (.fixed _ _) _, hres =>
        simp only [Recovery.result, Option.some.injEq, Prod.mk.injEq] at hres
        obtain ⟨rfl, rfl⟩ := hres
        rfl
      | .failed f _, hres =>
        simp only [Recovery.result, Option.some.injEq, Prod.mk.injEq] at hres
        obtain ⟨rfl, rfl⟩ := hres
        rfl
      | .panicked, hres => simp [Recovery.result] at hres

/-- **C79.** Record a parse with any solver. The parse with a solver that only plays back the recorded
answers returns the same result and uses exactly these answers. -/
theorem C79_replay (h h' : HashOrder T) (eps init : T) (ps : List (Production T))
    (g g' : Grammar T) (hg : Grammar.new h eps init ps = .ok g)
    (hg' : Grammar.new h' eps init ps = .ok g') (sv : Solver σ L T)
    (p : Parser (σ × List (RecordedCall L T)) L T) (hp : Built h g (some (recordCalls sv)) p)
    (p' : Parser (List (Option (FixResult L T))) L T) (hp' : Built h' g' (some replay) p')
    (tokens : List (Token L T)) (s s' : σ) (r : ParseResult L T) (log : List (RecordedCall L T))
    (hr : Parses p tokens (s, []) r (s', log)) (more : List (Option (FixResult L T))) :
    Parses p' tokens (log.map (·.answer) ++ more) r more := by
  have hS : Parser.Recovery.PlaysBack (replay (L := L) (T := T)) tokens
      (fun rem _ => rem.map (·.answer) ++ more) := by
    intro pos fps o rem past
    match fps with
    | [] => rfl
    | [fp] => rfl
    | _ :: _ :: _ => rfl
  simpa using parses_of_playsBack hg hg' hp hp' hS hr [] []

/-- **C79**, the questions: the solver that plays back is asked the same in the same order. -/
theorem C79_same_calls (h h' : HashOrder T) (eps init : T) (ps : List (Production T))
    (g g' : Grammar T) (hg : Grammar.new h eps init ps = .ok g)
    (hg' : Grammar.new h' eps init ps = .ok g') (sv : Solver σ L T)
    (p : Parser (σ × List (RecordedCall L T)) L T) (hp : Built h g (some (recordCalls sv)) p)
    (p' : Parser (List (Option (FixResult L T)) × List (RecordedCall L T)) L T)
    (hp' : Built h' g' (some (recordCalls replay)) p')
    (tokens : List (Token L T)) (s s' : σ) (r : ParseResult L T) (log : List (RecordedCall L T))
    (hr : Parses p tokens (s, []) r (s', log)) (more : List (Option (FixResult L T))) :
    Parses p' tokens (log.map (·.answer) ++ more, []) r (more, log) := by
  have hS : Parser.Recovery.PlaysBack (recordCalls (replay (L := L) (T := T))) tokens
      (fun rem past => (rem.map (·.answer) ++ more, past)) := by
    intro pos fps o rem past
    match fps with
    | [] => rfl
    | [fp] => rfl
    | _ :: _ :: _ => rfl
  simpa using parses_of_playsBack hg hg' hp hp' hS hr [] []

/-- **C79**, only the answers matter: take two parses of the same tokens with any two solvers. If the
answers in one of them begin with the answers in the other, the results and all calls are the same. -/
theorem C79_answers_decide (h h' : HashOrder T) (eps init : T) (ps : List (Production T))
    (g g' : Grammar T) (hg : Grammar.new h eps init ps = .ok g)
    (hg' : Grammar.new h' eps init ps = .ok g') (sv : Solver σ L T) (sv' : Solver τ L T)
    (p : Parser (σ × List (RecordedCall L T)) L T) (hp : Built h g (some (recordCalls sv)) p)
    (p' : Parser (τ × List (RecordedCall L T)) L T) (hp' : Built h' g' (some (recordCalls sv')) p')
    (tokens : List (Token L T)) (s s1 : σ) (t t1 : τ) (r r' : ParseResult L T)
    (log log' : List (RecordedCall L T)) (hr : Parses p tokens (s, []) r (s1, log))
    (hr' : Parses p' tokens (t, []) r' (t1, log'))
    (hpre : log.map (·.answer) <+: log'.map (·.answer)) : r = r' ∧ log = log' := by
  obtain ⟨p0, hp0⟩ := Parser.built_exists hg (some (recordCalls (replay (L := L) (T := T))))
  obtain ⟨more, hm⟩ := hpre
  have h1 := C79_same_calls h h eps init ps g g hg hg sv p hp p0 hp0 tokens s s1 r log hr more
  have h2 := C79_same_calls h' h eps init ps g' g hg' hg sv' p' hp' p0 hp0 tokens t t1 r' log' hr' []
  rw [hm] at h1
  rw [List.append_nil] at h2
  obtain ⟨e1, e2⟩ := Parser.Parses.det h1 h2
  exact ⟨e1, (Prod.mk.inj e2).2⟩

/-- The hypotheses are met, by a parse in which the solver is asked three times, declines twice and then
returns a fix: `S → a B`, `B → b C`, `C → c` on `a b d`, and a solver that declines until position 0. -/
def atStart : Solver Unit Unit Nat where
  fixFailedProduction _ pos _ := pure (if pos = 0 then some ⟨3, .mk []⟩ else none)
  fixFailedProductions _ pos _ := pure (if pos = 0 then some ⟨3, .mk []⟩ else none)

example : ∃ g p p' fs c1 c2 c3,
    Grammar.new (HashOrder.id Nat) 0 1 [⟨1, [10, 2]⟩, ⟨2, [11, 3]⟩, ⟨3, [12]⟩] = .ok g ∧
    Built (HashOrder.id Nat) g (some (recordCalls atStart)) p ∧
    Built (HashOrder.id Nat) g (some replay) p' ∧
    Parses p [⟨none, 10⟩, ⟨none, 11⟩, ⟨none, 13⟩] ((), []) (.fix fs) ((), [c1, c2, c3]) ∧
    [c1, c2, c3].map (·.answer) = [none, none, some ⟨3, .mk []⟩] ∧
    Parses p' [⟨none, 10⟩, ⟨none, 11⟩, ⟨none, 13⟩] [none, none, some ⟨3, .mk []⟩] (.fix fs) [] :=
  ⟨_, _, _, _, _, _, _, rfl, Parser.built_of_eval_solver (n := 10) rfl,
    Parser.built_of_eval_solver (n := 10) rfl, Parser.parse_returns (n := 30) rfl, rfl,
    Parser.parse_returns (n := 30) rfl⟩

end Verif.Props
