import Verif.Proof.RecoveryOff
import Verif.Proof.RecoveryEnd
import Verif.Props.Solver
import Verif.Props.Choice

/-!
# Properties C38–C42: the exact result of `parse_from_tokens`, with any solver
-/

set_option linter.unusedSectionVars false

namespace Verif.Props

open Verif.Spec Verif.Examples

variable {σ L T : Type} [DecidableEq T]

/-- The search of Spec.Recovery for the initial symbol `init` over the table of the parser `p` and its
solver, on the tokens `t :: ts` in solver state `s`, gives `o`. -/
def Recovers (eps init : T) (ps : List (Production T)) (p : Parser σ L T)
    (solver : Option (Solver σ L T)) (t : Token L T) (ts : List (Token L T)) (s : σ)
    (o : Recovery.Outcome σ (Recovery.Derived L T) (FailedSymbol L T)) : Prop :=
  Recovery.Choice eps ps (candidates p.transitions) solver (t :: ts) init 0
    (candidates p.transitions init t.tType) true s o

/-- **C38.** With any solver (or none), what `parse_from_tokens` does on a non-empty input is what the
search of Spec.Recovery gives: the same tree, the same fixed symbol or the same failed symbol, down to
every failed production reported, and the same state of the solver afterwards; a panic iff the search
panics; and no return iff the search has no outcome. -/
theorem C38_exact_result (h : HashOrder T) (eps init : T) (ps : List (Production T))
    (g : Grammar T) (hg : Grammar.new h eps init ps = .ok g) (solver : Option (Solver σ L T))
    (p : Parser σ L T) (hp : Built h g solver p) (t : Token L T) (ts : List (Token L T)) (s : σ) :
    (∀ r s', Parses p (t :: ts) s r s' ↔
      ∃ o, Recovers eps init ps p solver t ts s o ∧ Recovery.result o = some (r, s')) ∧
    (ParsePanics p (t :: ts) s ↔ Recovers eps init ps p solver t ts s .panicked) ∧
    (ParseDiverges p (t :: ts) s ↔ ¬ ∃ o, Recovers eps init ps p solver t ts s o) := by
  obtain ⟨P, hs⟩ := Parser.tableParser_of_built hg hp
  have := Parser.Recovery.parse_iff_choice P.toParserOf t ts s
  rwa [show p.getTokenProductions = candidates p.transitions from
    funext fun x => funext fun a => Parser.getTokenProductions_eq p x a, hs] at this

/-- The same for a parser made from any FIRST and FOLLOW sets. -/
theorem C38_exact_result_any_first_follow (h : HashOrder T) (eps init : T)
    (ps : List (Production T)) (g : Grammar T) (hg : Grammar.new h eps init ps = .ok g)
    (ff : FirstFollow T) (p : Parser σ L T)
    (hp : Parser.fromGrammarAndFirstFollowSymbols h g ff = .ok p) (t : Token L T)
    (ts : List (Token L T)) (s : σ) :
    (∀ r s', Parses p (t :: ts) s r s' ↔
      ∃ o, Recovers eps init ps p none t ts s o ∧ Recovery.result o = some (r, s')) ∧
    (ParsePanics p (t :: ts) s ↔ Recovers eps init ps p none t ts s .panicked) ∧
    (ParseDiverges p (t :: ts) s ↔ ¬ ∃ o, Recovers eps init ps p none t ts s o) := by
  have := Parser.Recovery.parse_iff_choice (Parser.parserOf_of_from hg hp) t ts s
  rwa [show p.getTokenProductions = candidates p.transitions from
    funext fun x => funext fun a => Parser.getTokenProductions_eq p x a,
    (Parser.from_eq_ok hp).2.1] at this

/-- The search has at most one outcome. -/
theorem C38_search_deterministic (h : HashOrder T) (eps init : T) (ps : List (Production T))
    (g : Grammar T) (hg : Grammar.new h eps init ps = .ok g) (solver : Option (Solver σ L T))
    (p : Parser σ L T) (hp : Built h g solver p) (t : Token L T) (ts : List (Token L T)) (s : σ)
    (o o' : Recovery.Outcome σ (Recovery.Derived L T) (FailedSymbol L T))
    (ho : Recovers eps init ps p solver t ts s o) (ho' : Recovers eps init ps p solver t ts s o') :
    o = o' := by
  obtain ⟨P, hs⟩ := Parser.tableParser_of_built hg hp
  have e : candidates p.transitions = p.getTokenProductions :=
    funext fun x => funext fun a => (Parser.getTokenProductions_eq p x a).symm
  unfold Recovers at ho ho'
  rw [e, ← hs] at ho ho'
  exact Parser.Recovery.choice_det P.toParserOf ho ho'

/-- A solver that fixes everything by skipping one token, and counts its calls. -/
def countingFixer : Solver Nat Unit Nat where
  fixFailedProduction _ pos _ := fun s => .ok (some ⟨pos + 1, .mk []⟩, s + 1)
  fixFailedProductions _ pos _ := fun s => .ok (some ⟨pos + 1, .mk []⟩, s + 1)

/-- A non-trivial run of C38: `S → C B`, `C → a`, `B → b` on `a c`: `B` is fixed, and so the result is
`Fix`. -/
example : ∃ g p,
    Grammar.new (HashOrder.id Nat) 0 1 [⟨1, [2, 3]⟩, ⟨2, [10]⟩, ⟨3, [11]⟩] = .ok g ∧
    Built (HashOrder.id Nat) g (some countingFixer) p ∧
    Parses p [⟨none, 10⟩, ⟨none, 12⟩] 0
      (.fix (.mk (.mk [.ok (.mk [.mk [] ⟨none, 10⟩] ⟨none, 2⟩), .fixed (.mk (.mk []) 3)]) 1)) 1 :=
  ⟨_, _, rfl, Parser.built_of_eval_solver (n := 10) rfl, Parser.parse_returns (n := 20) rfl⟩

/-- A non-trivial failure report: `S → a C b d`, `C → c | c c` on `a c c d`. `C` was derived in two
ways, `b` failed both times; the report names `b`, has the `a` but not the `C`, and for that reason
lists the symbols behind `C`, not those behind `b`, as pending. -/
example : ∃ g p,
    Grammar.new (HashOrder.id Nat) 0 1 [⟨1, [10, 2, 11, 13]⟩, ⟨2, [12]⟩, ⟨2, [12, 12]⟩] = .ok g ∧
    Built (σ := Unit) (L := Unit) (HashOrder.id Nat) g none p ∧
    Parses p [⟨none, 10⟩, ⟨none, 12⟩, ⟨none, 12⟩, ⟨none, 13⟩] ()
      (.err (.mk [.mk (.mk [] 11) [.ok (.mk [] ⟨none, 10⟩)] [11, 13]] 1)) () :=
  ⟨_, _, rfl, Parser.built_of_eval (n := 10) rfl, Parser.parse_returns (n := 20) rfl⟩

/-! ## `Err` and the solver -/

/-- **C39.** A parser with a solver returns `Err(f)` only if the solver, asked about the failed
productions of `f` at position 0, declined, and that was its last call: the state of the solver after
the parse is the one after this call. It is `fix_failed_production` if there is exactly one failed
production, `fix_failed_productions` otherwise. -/
theorem C39_err_only_if_declined (h : HashOrder T) (eps init : T) (ps : List (Production T))
    (g : Grammar T) (hg : Grammar.new h eps init ps = .ok g) (sv : Solver σ L T)
    (p : Parser σ L T) (hp : Built h g (some sv) p) (tokens : List (Token L T)) (s s' : σ)
    (f : FailedSymbol L T) (hr : Parses p tokens s (.err f) s') :
    ∃ s1, match f.failedProductions with
      | [fp] => sv.fixFailedProduction tokens 0 fp s1 = .ok (none, s')
      | fps => sv.fixFailedProductions tokens 0 fps s1 = .ok (none, s') := by
  cases tokens with
  | nil =>
    obtain ⟨n, hn⟩ := Parser.parses_at hr
    simp [Parser.parseFromTokens] at hn
  | cons t ts =>
    obtain ⟨o, ho, hres⟩ := ((C38_exact_result h eps init ps g hg _ p hp t ts s).1 _ _).1 hr
    match o, ho, hres with
    | .found (.node _ _ _) _, _, hres => simp [Recovery.result] at hres
    | .found (.fixed _ _) _, _, hres => simp [Recovery.result] at hres
    | .panicked, _, hres => simp [Recovery.result] at hres
    | .failed f' s'', ho, hres =>
      simp only [Recovery.result, Option.some.injEq, Prod.mk.injEq, ParseResult.err.injEq] at hres
      obtain ⟨rfl, rfl⟩ := hres
      cases ho with
      | failed _ _ _ _ _ s1 _ fps h1 h2 =>
        refine ⟨s1, ?_⟩
        match fps, h2 with
        | [], h2 => exact h2
        | [fp], h2 => exact h2
        | a :: b :: l, h2 => exact h2

/-- So with a solver that never declines no parse returns `Err`. -/
theorem C39_never_declining (h : HashOrder T) (eps init : T) (ps : List (Production T))
    (g : Grammar T) (hg : Grammar.new h eps init ps = .ok g) (sv : Solver σ L T)
    (h1 : ∀ tokens pos fp s s', sv.fixFailedProduction tokens pos fp s ≠ .ok (none, s'))
    (h2 : ∀ tokens pos fps s s', sv.fixFailedProductions tokens pos fps s ≠ .ok (none, s'))
    (p : Parser σ L T) (hp : Built h g (some sv) p) (tokens : List (Token L T)) (s s' : σ)
    (f : FailedSymbol L T) : ¬ Parses p tokens s (.err f) s' := by
  intro hr
  obtain ⟨s1, h3⟩ := C39_err_only_if_declined h eps init ps g hg sv p hp tokens s s' f hr
  split at h3
  · exact h1 _ _ _ _ _ h3
  · exact h2 _ _ _ _ _ h3

/-- The hypotheses of C39 are met, with a single failed production. -/
example : ∃ g p f, Grammar.new (HashOrder.id Nat) 0 1 exprPs = .ok g ∧
    Built (HashOrder.id Nat) g (some countingSolver) p ∧
    Parses p [⟨none, 15⟩, ⟨none, 15⟩, ⟨none, 16⟩] 0 (.err f) 5 ∧ f.failedProductions.length = 1 :=
  ⟨_, _, _, rfl, Parser.built_of_eval_solver (n := 10) rfl, Parser.parse_returns (n := 30) rfl, rfl⟩

/-! ## First tokens with several candidates, or none -/

/-- **C40.** If the initial symbol has several candidates for the first token, or none, then the solver
is asked at most once: the parser with a solver does what the parser without one does, and if that
ends in `Err(f)`, asks `fix_failed_productions` about the failed productions of `f` at position 0. A
fix becomes the result as it is. -/
theorem C40_one_call (h : HashOrder T) (eps init : T) (ps : List (Production T))
    (g : Grammar T) (hg : Grammar.new h eps init ps = .ok g) (sv : Solver σ L T)
    (p p0 : Parser σ L T) (hp : Built h g (some sv) p) (hp0 : Built h g none p0)
    (t : Token L T) (ts : List (Token L T))
    (hlen : (candidates p.transitions init t.tType).length ≠ 1) (s : σ) :
    (∀ tree s', Parses p (t :: ts) s (.ok tree) s' ↔
      s' = s ∧ Parses p0 (t :: ts) s (.ok tree) s) ∧
    (∀ f s', Parses p (t :: ts) s (.err f) s' ↔ Parses p0 (t :: ts) s (.err f) s ∧
      sv.fixFailedProductions (t :: ts) 0 f.failedProductions s = .ok (none, s')) ∧
    (∀ fs s', Parses p (t :: ts) s (.fix fs) s' ↔ ∃ f r, Parses p0 (t :: ts) s (.err f) s ∧
      sv.fixFailedProductions (t :: ts) 0 f.failedProductions s = .ok (some r, s') ∧
      fs = .mk r.production init) ∧
    (ParsePanics p (t :: ts) s ↔ ParsePanics p0 (t :: ts) s ∨
      ∃ f e, Parses p0 (t :: ts) s (.err f) s ∧
        sv.fixFailedProductions (t :: ts) 0 f.failedProductions s = .panic e) := by
  obtain ⟨a1, a2, -⟩ := C38_exact_result h eps init ps g hg _ p hp t ts s
  obtain ⟨b1, b2, -⟩ := C38_exact_result h eps init ps g hg _ p0 hp0 t ts s
  have hcand : candidates p0.transitions = candidates p.transitions := by
    funext x a
    rw [← Parser.getTokenProductions_eq, ← Parser.getTokenProductions_eq]
    exact (Parser.agree_of_built hg hg hp hp0).cand_eq x a
  unfold Recovers at a1 a2 b1 b2
  rw [hcand] at b1 b2
  generalize hC : candidates p.transitions init t.tType = outs at a1 a2 b1 b2 hlen
  have hd : (true && decide (outs.length = 1)) = false := by simp [hlen]
  -- the failed productions are as many as the candidates
  have hfl : ∀ fps s1, Recovery.Alts eps ps (candidates p.transitions) none (t :: ts) init 0 false outs
      s (.failed fps s1) → fps.length = outs.length := by
    intro fps s1 h1
    exact Parser.Recovery.alts_length h1 _ _ rfl
  -- what happens to the candidates is the same with and without the solver
  have key : ∀ {r}, Recovery.Alts eps ps (candidates p.transitions) (some sv) (t :: ts) init 0 false
      outs s r ↔ Recovery.Alts eps ps (candidates p.transitions) none (t :: ts) init 0 false outs s r :=
    ⟨fun h => (Parser.Recovery.alts_off _ h).1, fun h => (Parser.Recovery.alts_off _ h).1⟩
  have hans : ∀ fps : List (FailedProduction L T), fps.length ≠ 1 → ∀ s1,
      Recovery.answer (some sv) (t :: ts) 0 true fps s1 = sv.fixFailedProductions (t :: ts) 0 fps s1 := by
    intro fps hf s1
    match fps, hf with
    | [], _ => rfl
    | [_], hf => exact absurd rfl hf
    | _ :: _ :: _, _ => rfl
  -- the parser without solver fails
  have herr : ∀ f s1, Parses p0 (t :: ts) s (.err f) s1 ↔ s1 = s ∧ ∃ fps, f = .mk fps init ∧
      fps.length ≠ 1 ∧
      Recovery.Alts eps ps (candidates p.transitions) none (t :: ts) init 0 false outs s
        (.failed fps s) := by
    intro f s1
    rw [b1]
    constructor
    · rintro ⟨o, ho, hres⟩
      match o, ho, hres with
      | .found (.node _ _ _) _, _, hres => simp [Recovery.result] at hres
      | .found (.fixed _ _) _, _, hres => simp [Recovery.result] at hres
      | .panicked, _, hres => simp [Recovery.result] at hres
      | .failed f' s'', ho, hres =>
        simp only [Recovery.result, Option.some.injEq, Prod.mk.injEq, ParseResult.err.injEq] at hres
        obtain ⟨rfl, rfl⟩ := hres
        cases ho with
        | failed _ _ _ _ _ s2 _ fps h1 h2 =>
          rw [hd] at h1
          simp only [Recovery.answer, Out.ok.injEq, Prod.mk.injEq, true_and] at h2
          subst h2
          have hk : s2 = s := (Parser.Recovery.alts_off (none) h1).2
          subst hk
          exact ⟨rfl, fps, rfl, by rw [hfl _ _ h1]; exact hlen, h1⟩
    · rintro ⟨rfl, fps, rfl, _, h1⟩
      refine ⟨_, .failed _ _ _ _ _ _ _ fps (by rw [hd]; exact h1) rfl, rfl⟩
  refine ⟨?_, ?_, ?_, ?_⟩
  · intro tree s'
    rw [a1, b1]
    constructor
    · rintro ⟨o, ho, hres⟩
      match o, ho, hres with
      | .found (.fixed _ _) _, _, hres => simp [Recovery.result] at hres
      | .failed _ _, _, hres => simp [Recovery.result] at hres
      | .panicked, _, hres => simp [Recovery.result] at hres
      | .found (.node n q rest) s'', ho, hres =>
        simp only [Recovery.result, Option.some.injEq, Prod.mk.injEq, ParseResult.ok.injEq] at hres
        obtain ⟨rfl, rfl⟩ := hres
        cases ho with
        | derived _ _ _ _ _ _ _ h1 =>
          rw [hd] at h1
          have hk : s'' = s := (Parser.Recovery.alts_off (none) h1).2
          subst hk
          exact ⟨rfl, _, .derived _ _ _ _ _ _ _ (by rw [hd]; exact key.1 h1), rfl⟩
    · rintro ⟨rfl, o, ho, hres⟩
      match o, ho, hres with
      | .found (.fixed _ _) _, _, hres => simp [Recovery.result] at hres
      | .failed _ _, _, hres => simp [Recovery.result] at hres
      | .panicked, _, hres => simp [Recovery.result] at hres
      | .found (.node n q rest) s'', ho, hres =>
        refine ⟨_, ?_, hres⟩
        cases ho with
        | derived _ _ _ _ _ _ _ h1 =>
          rw [hd] at h1
          exact .derived _ _ _ _ _ _ _ (by rw [hd]; exact key.2 h1)
  · intro f s'
    rw [a1, herr]
    constructor
    · rintro ⟨o, ho, hres⟩
      match o, ho, hres with
      | .found (.node _ _ _) _, _, hres => simp [Recovery.result] at hres
      | .found (.fixed _ _) _, _, hres => simp [Recovery.result] at hres
      | .panicked, _, hres => simp [Recovery.result] at hres
      | .failed f' s'', ho, hres =>
        simp only [Recovery.result, Option.some.injEq, Prod.mk.injEq, ParseResult.err.injEq] at hres
        obtain ⟨rfl, rfl⟩ := hres
        cases ho with
        | failed _ _ _ _ _ s2 _ fps h1 h2 =>
          rw [hd, key] at h1
          have hk : s2 = s := (Parser.Recovery.alts_off (none) h1).2
          subst hk
          have hl : fps.length ≠ 1 := by rw [hfl _ _ h1]; exact hlen
          rw [hans fps hl] at h2
          exact ⟨⟨rfl, fps, rfl, hl, h1⟩, h2⟩
    · rintro ⟨⟨-, fps, rfl, hl, h1⟩, h2⟩
      exact ⟨_, .failed _ _ _ _ _ _ _ fps (by rw [hd]; exact key.2 h1)
        (by rw [hans fps hl]; exact h2), rfl⟩
  · intro fs s'
    rw [a1]
    constructor
    · rintro ⟨o, ho, hres⟩
      match o, ho, hres with
      | .found (.node _ _ _) _, _, hres => simp [Recovery.result] at hres
      | .failed _ _, _, hres => simp [Recovery.result] at hres
      | .panicked, _, hres => simp [Recovery.result] at hres
      | .found (.fixed fs' q) s'', ho, hres =>
        simp only [Recovery.result, Option.some.injEq, Prod.mk.injEq, ParseResult.fix.injEq] at hres
        obtain ⟨rfl, rfl⟩ := hres
        cases ho with
        | derived _ _ _ _ _ _ _ h1 =>
          rw [hd] at h1
          exact (Parser.Recovery.alts_off_node h1).elim
        | fixed _ _ _ _ _ s2 _ fps r h1 h2 =>
          rw [hd, key] at h1
          have hk : s2 = s := (Parser.Recovery.alts_off (none) h1).2
          subst hk
          have hl : fps.length ≠ 1 := by rw [hfl _ _ h1]; exact hlen
          rw [hans fps hl] at h2
          exact ⟨.mk fps init, r, (herr _ _).2 ⟨rfl, fps, rfl, hl, h1⟩, h2, rfl⟩
    · rintro ⟨f, r, hf, h2, rfl⟩
      obtain ⟨-, fps, rfl, hl, h1⟩ := (herr _ _).1 hf
      exact ⟨_, .fixed _ _ _ _ _ _ _ fps r (by rw [hd]; exact key.2 h1)
        (by rw [hans fps hl]; exact h2), rfl⟩
  · rw [a2, b2]
    constructor
    · intro ho
      cases ho with
      | panicked _ _ _ _ _ h1 =>
        rw [hd, key] at h1
        exact .inl (.panicked _ _ _ _ _ (by rw [hd]; exact h1))
      | solverPanics _ _ _ _ _ s2 fps e h1 h2 =>
        rw [hd, key] at h1
        have hk : s2 = s := (Parser.Recovery.alts_off (none) h1).2
        subst hk
        have hl : fps.length ≠ 1 := by rw [hfl _ _ h1]; exact hlen
        rw [hans fps hl] at h2
        exact .inr ⟨.mk fps init, e, (herr _ _).2 ⟨rfl, fps, rfl, hl, h1⟩, h2⟩
    · rintro (ho | ⟨f, e, hf, h2⟩)
      · cases ho with
        | panicked _ _ _ _ _ h1 =>
          rw [hd] at h1
          exact .panicked _ _ _ _ _ (by rw [hd]; exact key.2 h1)
        | solverPanics _ _ _ _ _ s2 fps e h1 h2 => simp [Recovery.answer] at h2
      · obtain ⟨-, fps, rfl, hl, h1⟩ := (herr _ _).1 hf
        exact .solverPanics _ _ _ _ _ _ fps e (by rw [hd]; exact key.2 h1)
          (by rw [hans fps hl]; exact h2)

/-- The hypotheses of C40 are met and the fix is the result: `S → a b | a c`, on `a d`. -/
example : ∃ g p p0 f,
    Grammar.new (HashOrder.id Nat) 0 1 [⟨1, [10, 11]⟩, ⟨1, [10, 12]⟩] = .ok g ∧
    Built (HashOrder.id Nat) g (some countingFixer) p ∧
    Built (σ := Nat) (L := Unit) (HashOrder.id Nat) g none p0 ∧
    (candidates p.transitions 1 10).length = 2 ∧
    Parses p0 [⟨none, 10⟩, ⟨none, 13⟩] 7 (.err f) 7 ∧
    Parses p [⟨none, 10⟩, ⟨none, 13⟩] 7 (.fix (.mk (.mk []) 1)) 8 :=
  ⟨_, _, _, _, rfl, Parser.built_of_eval_solver (n := 10) rfl, Parser.built_of_eval (n := 10) rfl, rfl,
    Parser.parse_returns (n := 20) rfl, Parser.parse_returns (n := 20) rfl⟩

/-! ## Fixes that get lost -/

/-- The solver returned a fix at least once: its state is a pair of what it was and of the number of
fixes it returned. -/
def countFixes (sv : Solver σ L T) : Solver (σ × Nat) L T where
  fixFailedProduction tokens pos f := fun (s, n) =>
    match sv.fixFailedProduction tokens pos f s with
    | .ok (some r, s') => .ok (some r, (s', n + 1))
    | .ok (none, s') => .ok (none, (s', n))
    | .panic e => .panic e
    | .fuel => .fuel
  fixFailedProductions tokens pos fs := fun (s, n) =>
    match sv.fixFailedProductions tokens pos fs s with
    | .ok (some r, s') => .ok (some r, (s', n + 1))
    | .ok (none, s') => .ok (none, (s', n))
    | .panic e => .panic e
    | .fuel => .fuel

/-- **C41**, the case of several candidates (or none) for the first token: if the solver returned a
fix during the parse, the result is `Fix`. Missing of the full property: first tokens with exactly one
candidate, where it is false (`C41_fix_lost`, `C41_fix_lost_in_accepted_input`). -/
theorem C41_fix_is_used_partial (h : HashOrder T) (eps init : T) (ps : List (Production T))
    (g : Grammar T) (hg : Grammar.new h eps init ps = .ok g) (sv : Solver σ L T)
    (p : Parser (σ × Nat) L T) (hp : Built h g (some (countFixes sv)) p)
    (t : Token L T) (ts : List (Token L T))
    (hlen : (candidates p.transitions init t.tType).length ≠ 1) (s s' : σ) (n : Nat)
    (r : ParseResult L T) (hr : Parses p (t :: ts) (s, 0) r (s', n)) (hn : n ≠ 0) :
    ∃ fs, r = .fix fs := by
  obtain ⟨p0, hp0⟩ := Parser.built_exists (σ := σ × Nat) (L := L) hg none
  obtain ⟨h1, h2, _, _⟩ := C40_one_call h eps init ps g hg _ p p0 hp hp0 t ts hlen (s, 0)
  cases r with
  | fix fs => exact ⟨fs, rfl⟩
  | ok tree =>
    have := ((h1 tree _).1 hr).1
    simp only [Prod.mk.injEq] at this
    exact absurd this.2 hn
  | err f =>
    have := ((h2 f _).1 hr).2
    simp only [countFixes] at this
    split at this
    · simp at this
    · simp only [Out.ok.injEq, Prod.mk.injEq, true_and] at this
      exact absurd this.2.symm hn
    · simp at this
    · simp at this

/-- A solver that fixes, but only when there is no failed production to fix. -/
def emptyFixer : Solver Unit Unit Nat where
  fixFailedProduction _ _ _ := pure none
  fixFailedProductions _ pos fps := pure (if fps.length = 0 then some ⟨pos + 1, .mk []⟩ else none)

/-- A solver that fixes the first failure it is asked about. -/
def fixesFirst : Solver Bool Unit Nat where
  fixFailedProduction _ pos _ := fun b => .ok (if b then none else some ⟨pos + 1, .mk []⟩, true)
  fixFailedProductions _ pos _ := fun b => .ok (if b then none else some ⟨pos + 1, .mk []⟩, true)

/-- **The full C41 is false**: `S → C b`, `C → a | a a` on `a c`. After `b` has failed, `C` is retried
with `C → a a`; the solver returns a fix for it, which is thrown away; the result is `Err`. -/
theorem C41_fix_lost : ∃ g p f,
    Grammar.new (HashOrder.id Nat) 0 1 [⟨1, [2, 11]⟩, ⟨2, [10]⟩, ⟨2, [10, 10]⟩] = .ok g ∧
    Built (HashOrder.id Nat) g (some (countFixes fixesFirst)) p ∧
    Parses p [⟨none, 10⟩, ⟨none, 12⟩] (false, 0) (.err f) (true, 1) :=
  ⟨_, _, _, rfl, Parser.built_of_eval_solver (n := 10) rfl, Parser.parse_returns (n := 30) rfl⟩

/-- And even in a parse that ends in `Ok`: `S → C D b`, `C → a | a a`, `D → a | c` on `a a c b`. The
first `D → a` succeeds but `b` fails; `D`, without candidates left, is retried: the solver is asked to
fix an empty list of productions, does so, and the fix is thrown away. Then `C → a a` is tried. -/
theorem C41_fix_lost_in_accepted_input : ∃ g p tree,
    Grammar.new (HashOrder.id Nat) 0 1
      [⟨1, [2, 3, 11]⟩, ⟨2, [10]⟩, ⟨2, [10, 10]⟩, ⟨3, [10]⟩, ⟨3, [12]⟩] = .ok g ∧
    Built (HashOrder.id Nat) g (some (countFixes emptyFixer)) p ∧
    Parses p [⟨none, 10⟩, ⟨none, 10⟩, ⟨none, 12⟩, ⟨none, 11⟩] ((), 0) (.ok tree) ((), 1) :=
  ⟨_, _, _, rfl, Parser.built_of_eval_solver (n := 10) rfl, Parser.parse_returns (n := 30) rfl⟩

/-- The hypotheses of C41 are met: `S → a b | a c`, on `a d`. -/
example : ∃ g p fs,
    Grammar.new (HashOrder.id Nat) 0 1 [⟨1, [10, 11]⟩, ⟨1, [10, 12]⟩] = .ok g ∧
    Built (HashOrder.id Nat) g (some (countFixes fixesFirst)) p ∧
    (candidates p.transitions 1 10).length ≠ 1 ∧
    Parses p [⟨none, 10⟩, ⟨none, 13⟩] (false, 0) (.fix fs) (true, 1) :=
  ⟨_, _, _, rfl, Parser.built_of_eval_solver (n := 10) rfl, by decide,
    Parser.parse_returns (n := 20) rfl⟩

/-! ## Initial symbols without productions -/

/-- **C42.** `ContextFreeGrammar::new` does not check the initial symbol. With one that has no
productions, the parser accepts nothing: on every non-empty input it returns `Err` of the initial
symbol with no failed productions, or, with a solver, what the solver makes of an empty list of failed
productions at position 0 (a panic if it panics); never `Ok`. -/
theorem C42_initial_symbol_without_productions (h : HashOrder T) (eps init : T)
    (ps : List (Production T)) (g : Grammar T) (hg : Grammar.new h eps init ps = .ok g)
    (hinit : ¬ IsNonTerminal ps init) (solver : Option (Solver σ L T)) (p : Parser σ L T)
    (hp : Built h g solver p) (t : Token L T) (ts : List (Token L T)) (s : σ) :
    (solver = none → Parses p (t :: ts) s (.err (.mk [] init)) s) ∧
    (∀ sv s', solver = some sv → sv.fixFailedProductions (t :: ts) 0 [] s = .ok (none, s') →
      Parses p (t :: ts) s (.err (.mk [] init)) s') ∧
    (∀ sv r s', solver = some sv → sv.fixFailedProductions (t :: ts) 0 [] s = .ok (some r, s') →
      Parses p (t :: ts) s (.fix (.mk r.production init)) s') ∧
    (∀ sv e, solver = some sv → sv.fixFailedProductions (t :: ts) 0 [] s = .panic e →
      ParsePanics p (t :: ts) s) ∧
    ∀ tree s', ¬ Parses p (t :: ts) s (.ok tree) s' := by
  obtain ⟨P, hs⟩ := Parser.tableParser_of_built hg hp
  have hc : candidates p.transitions init t.tType = [] := by
    rw [← Parser.getTokenProductions_eq]
    by_contra hne
    obtain ⟨out, hout⟩ := List.exists_mem_of_ne_nil _ hne
    exact hinit ⟨_, P.cand _ _ _ hout, rfl⟩
  obtain ⟨ha, hb, -⟩ := C38_exact_result h eps init ps g hg solver p hp t ts s
  unfold Recovers at ha hb
  rw [hc] at ha hb
  refine ⟨?_, ?_, ?_, ?_, ?_⟩
  · rintro rfl
    exact (ha _ _).2 ⟨_, .failed _ _ _ _ _ _ _ [] (.none _ _ _ _) rfl, rfl⟩
  · rintro sv s' rfl h1
    exact (ha _ _).2 ⟨_, .failed _ _ _ _ _ _ _ [] (.none _ _ _ _) h1, rfl⟩
  · rintro sv r s' rfl h1
    exact (ha _ _).2 ⟨_, .fixed _ _ _ _ _ _ _ [] _ (.none _ _ _ _) h1, rfl⟩
  · rintro sv e rfl h1
    exact hb.2 (.solverPanics _ _ _ _ _ _ [] e (.none _ _ _ _) h1)
  · intro tree s' hr
    obtain ⟨-, -, hi, -⟩ := ok_tree P.toParserOf hr
    exact hinit hi

/-- The hypotheses of C42 are met: the initial symbol is the terminal `a` of `S → a`, and even the
input `a` is rejected. -/
example : ∃ g p, Grammar.new (HashOrder.id Nat) 0 10 [⟨1, [10]⟩] = .ok g ∧
    ¬ IsNonTerminal [(⟨1, [10]⟩ : Production Nat)] 10 ∧
    Built (σ := Unit) (L := Unit) (HashOrder.id Nat) g none p ∧
    Parses p [⟨none, 10⟩] () (.err (.mk [] 10)) () := by
  refine ⟨_, _, rfl, ?_, Parser.built_of_eval (n := 10) rfl, Parser.parse_returns (n := 20) rfl⟩
  rintro ⟨q, hq, e⟩
  simp only [List.mem_singleton] at hq
  subst hq
  simp at e

/-! ## No panic with a solver -/

/-- **C18**, second half, with a solver, for end-marked grammars and inputs: if the solver, asked about
these tokens, does not panic and does not skip the last token, the parser does not panic. Missing:
other grammars and inputs (`C18_input_runs_out`), and solvers that skip the last token
(`C18_fix_skips_end`); for both the claim is false of the pinned code. -/
theorem C18_no_panic_with_solver_partial (h : HashOrder T) (eps init : T) (ps : List (Production T))
    (g : Grammar T) (hg : Grammar.new h eps init ps = .ok g) (sv : Solver σ L T)
    (p : Parser σ L T) (hp : Built h g (some sv) p) (e : T) (hem : EndMarked eps init e ps)
    (tokens : List (Token L T)) (hin : EndsWith e tokens)
    (h1 : ∀ pos fp s, pos < tokens.length →
      (∀ c, sv.fixFailedProduction tokens pos fp s ≠ .panic c) ∧
      ∀ r s', sv.fixFailedProduction tokens pos fp s = .ok (some r, s') →
        r.finalTokenPosition < tokens.length)
    (h2 : ∀ pos fps s, pos < tokens.length →
      (∀ c, sv.fixFailedProductions tokens pos fps s ≠ .panic c) ∧
      ∀ r s', sv.fixFailedProductions tokens pos fps s = .ok (some r, s') →
        r.finalTokenPosition < tokens.length)
    (s : σ) : ¬ ParsePanics p tokens s := by
  obtain ⟨P, hs⟩ := Parser.tableParser_of_built hg hp
  refine Parser.Recovery.no_panic_of_endMarked P.toParserOf ?_ hem hin s
  intro pos hpos sg fps s
  rw [hs]
  have key : ∀ o : Out (Option (FixResult L T) × σ),
      ((∀ c, o ≠ .panic c) ∧ ∀ r s', o = .ok (some r, s') → r.finalTokenPosition < tokens.length) →
      match o with
      | .ok (some r, _) => r.finalTokenPosition < tokens.length
      | .ok (none, _) => True
      | .panic _ => False
      | .fuel => True := by
    intro o ho
    match o, ho with
    | .ok (some r, s'), ho => exact ho.2 _ _ rfl
    | .ok (none, _), _ => trivial
    | .panic c, ho => exact ho.1 c rfl
    | .fuel, _ => trivial
  apply key
  match sg, fps with
  | false, _ => exact ⟨fun c h => by simp [Recovery.answer] at h, fun r s' h => by
      simp [Recovery.answer] at h⟩
  | true, [fp] => exact h1 pos fp s hpos
  | true, [] => exact h2 pos [] s hpos
  | true, fp :: fp' :: fps => exact h2 pos (fp :: fp' :: fps) s hpos

/-- A solver that fixes everything without skipping a token. -/
def insertingFixer : Solver Nat Unit Nat where
  fixFailedProduction _ pos _ := fun s => .ok (some ⟨pos, .mk []⟩, s + 1)
  fixFailedProductions _ pos _ := fun s => .ok (some ⟨pos, .mk []⟩, s + 1)

/-- Its hypotheses are met by the expression grammar on `) $` and a solver that fixes everything. -/
example : ∃ g p, Grammar.new (HashOrder.id Nat) 0 1 exprPs = .ok g ∧
    Built (HashOrder.id Nat) g (some insertingFixer) p ∧ EndMarked 0 1 16 exprPs ∧
    EndsWith 16 [(⟨none, 14⟩ : Token Unit Nat), ⟨none, 16⟩] ∧
    (∀ pos fp s, pos < 2 →
      (∀ c, insertingFixer.fixFailedProduction [⟨none, 14⟩, ⟨none, 16⟩] pos fp s ≠ .panic c) ∧
      ∀ r s', insertingFixer.fixFailedProduction [⟨none, 14⟩, ⟨none, 16⟩] pos fp s =
        .ok (some r, s') → r.finalTokenPosition < 2) ∧
    (∀ pos fps s, pos < 2 →
      (∀ c, insertingFixer.fixFailedProductions [⟨none, 14⟩, ⟨none, 16⟩] pos fps s ≠ .panic c) ∧
      ∀ r s', insertingFixer.fixFailedProductions [⟨none, 14⟩, ⟨none, 16⟩] pos fps s =
        .ok (some r, s') → r.finalTokenPosition < 2) :=
  ⟨_, _, rfl, Parser.built_of_eval_solver (n := 20) rfl, exprPs_endMarked,
    ⟨[⟨none, 14⟩], ⟨none, 16⟩, rfl, rfl, by decide⟩,
    fun pos fp s hpos => ⟨fun c h => by simp [insertingFixer] at h, fun r s' h => by
      simp only [insertingFixer, Out.ok.injEq, Prod.mk.injEq, Option.some.injEq] at h
      rw [← h.1]; exact hpos⟩,
    fun pos fp s hpos => ⟨fun c h => by simp [insertingFixer] at h, fun r s' h => by
      simp only [insertingFixer, Out.ok.injEq, Prod.mk.injEq, Option.some.injEq] at h
      rw [← h.1]; exact hpos⟩⟩

/-- **C18 is false of the pinned code** for solvers that skip too much, even for end-marked grammars
and inputs: `S → a A B $`, `A → b`, `B → c` on `a $`. The solver fixes `A` by skipping `$`, then `B` is
to be derived behind the last token, and the parser panics. -/
theorem C18_fix_skips_end : ∃ g p,
    Grammar.new (HashOrder.id Nat) 0 1 [⟨1, [10, 2, 3, 16]⟩, ⟨2, [11]⟩, ⟨3, [12]⟩] = .ok g ∧
    Built (HashOrder.id Nat) g (some countingFixer) p ∧
    EndsWith 16 [(⟨none, 10⟩ : Token Unit Nat), ⟨none, 16⟩] ∧
    ParsePanics p [⟨none, 10⟩, ⟨none, 16⟩] 0 :=
  ⟨_, _, rfl, Parser.built_of_eval_solver (n := 10) rfl, ⟨[⟨none, 10⟩], ⟨none, 16⟩, rfl, rfl, by decide⟩,
    Parser.parse_panics (n := 20) (e := .unwrapNone) rfl⟩

end Verif.Props
