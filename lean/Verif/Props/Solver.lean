import Verif.Proof.LastResort
import Verif.Spec.SinglePath
import Verif.Spec.Examples

/-!
# Properties C28–C30, C32, C36: what parsing does and does not depend on
-/

set_option linter.unusedSectionVars false

namespace Verif.Props

open Verif.Spec Verif.Examples

variable {σ τ L L' T : Type} [DecidableEq T]

/-! ## Hash order -/

/-- **C36.** Parsers built from the same productions under any two hash orders, with the same solver
or none, have the same outcome on every input: the same result and the same state of the solver
afterwards, or both panic, or both never return. And an outcome, once there, is the only one. -/
theorem C36_hash_independent (h h' : HashOrder T) (eps init : T) (ps : List (Production T))
    (g g' : Grammar T) (hg : Grammar.new h eps init ps = .ok g)
    (hg' : Grammar.new h' eps init ps = .ok g') (solver : Option (Solver σ L T))
    (p p' : Parser σ L T) (hp : Built h g solver p) (hp' : Built h' g' solver p')
    (tokens : List (Token L T)) (s : σ) :
    (∀ r s', Parses p tokens s r s' ↔ Parses p' tokens s r s') ∧
    (ParsePanics p tokens s ↔ ParsePanics p' tokens s) ∧
    (ParseDiverges p tokens s ↔ ParseDiverges p' tokens s) := by
  have hs := (Parser.tableParser_of_built hg hp).2
  have hs' := (Parser.tableParser_of_built hg' hp').2
  have P := (Parser.tableParser_of_built hg hp).1.toParserOf
  obtain ⟨h1, h2, h3, h4⟩ := Parser.outcomes_of_sim (R := Eq) (s := s) (s' := s)
    (Parser.sim_of_fixSim P (Parser.agree_of_built hg hg' hp hp') (tokens := tokens) (by
      intro pos outs sg failed x _ _
      have : Parser.tryFixProductions p tokens pos sg (Parser.isChildSinglePath sg outs) failed =
          Parser.tryFixProductions p' tokens pos sg (Parser.isChildSinglePath sg outs) failed := by
        unfold Parser.tryFixProductions
        rw [hs, hs']
      rw [this]
      intro s s' e
      subst e
      cases Parser.tryFixProductions p' tokens pos sg (Parser.isChildSinglePath sg outs) failed s with
      | ok a => exact ⟨a.2, rfl, rfl⟩
      | panic e => rfl
      | fuel => rfl)) rfl
  refine ⟨?_, h3, h4⟩
  intro r s'
  constructor
  · intro hr
    obtain ⟨s1, hr', rfl⟩ := h1 r s' hr
    exact hr'
  · intro hr
    obtain ⟨r', s1, hr', rfl, rfl⟩ := h2 r s' hr
    exact hr'

/-- **C36**, stability: asked again with the solver in the same state, a parser gives the same
result; and every run has exactly one kind of outcome. -/
theorem C36_stable (p : Parser σ L T) (tokens : List (Token L T)) (s : σ) :
    (∀ r1 s1 r2 s2, Parses p tokens s r1 s1 → Parses p tokens s r2 s2 → r1 = r2 ∧ s1 = s2) ∧
    ((∃ r s', Parses p tokens s r s') ∨ ParsePanics p tokens s ∨ ParseDiverges p tokens s) := by
  refine ⟨fun r1 s1 r2 s2 h1 h2 => Parser.Parses.det h1 h2, ?_⟩
  rcases Parser.parse_trichotomy p tokens s with ⟨⟨r, s'⟩, h⟩ | h | h
  · exact .inl ⟨r, s', h⟩
  · exact .inr (.inl h)
  · exact .inr (.inr h)

/-! ## A solver that declines -/

/-- The solver always answers `None` (it may change its state). -/
def Declines (sv : Solver τ L T) : Prop :=
  (∀ tokens pos f s, ∃ s', sv.fixFailedProduction tokens pos f s = .ok (none, s')) ∧
  (∀ tokens pos fs s, ∃ s', sv.fixFailedProductions tokens pos fs s = .ok (none, s'))

/-- **C28.** A solver that always declines is invisible. -/
theorem C28_declining_solver (h h' : HashOrder T) (eps init : T) (ps : List (Production T))
    (g g' : Grammar T) (hg : Grammar.new h eps init ps = .ok g)
    (hg' : Grammar.new h' eps init ps = .ok g') (sv : Solver τ L T) (hsv : Declines sv)
    (p : Parser σ L T) (p' : Parser τ L T) (hp : Built h g none p) (hp' : Built h' g' (some sv) p')
    (tokens : List (Token L T)) (s : σ) (s' : τ) :
    (∀ r, (∃ s1, Parses p tokens s r s1) ↔ ∃ s1, Parses p' tokens s' r s1) ∧
    (ParsePanics p tokens s ↔ ParsePanics p' tokens s') ∧
    (ParseDiverges p tokens s ↔ ParseDiverges p' tokens s') := by
  have hs := (Parser.tableParser_of_built hg hp).2
  have hs' := (Parser.tableParser_of_built hg' hp').2
  have P := (Parser.tableParser_of_built hg hp).1.toParserOf
  obtain ⟨h1, h2, h3, h4⟩ := Parser.outcomes_of_sim (R := fun _ _ => True) (s := s) (s' := s')
    (Parser.sim_of_fixSim P (Parser.agree_of_built hg hg' hp hp') (tokens := tokens) (by
      intro pos outs sg failed x hpre hf
      have hlen := Parser.FailedProdsOk.length hf
      unfold Parser.tryFixProductions
      rw [hs, hs']
      intro t t' _
      simp only [M.pure_apply, id]
      by_cases hsg : sg = true
      · rw [if_pos hsg]
        by_cases hc : Parser.isChildSinglePath sg outs = true
        · rw [if_pos hc]
          have : outs.length = 1 := by
            simp only [Parser.isChildSinglePath, hsg, Bool.true_and, decide_eq_true_eq] at hc
            exact hc
          rw [this] at hlen
          obtain ⟨f, rfl⟩ := List.length_eq_one_iff.1 hlen
          obtain ⟨t1, ht1⟩ := hsv.1 tokens pos f t'
          exact ⟨t1, ht1, trivial⟩
        · rw [if_neg hc]
          obtain ⟨t1, ht1⟩ := hsv.2 tokens pos failed t'
          exact ⟨t1, ht1, trivial⟩
      · rw [if_neg hsg]
        exact ⟨t', rfl, trivial⟩)) trivial
  refine ⟨?_, h3, h4⟩
  intro r
  constructor
  · rintro ⟨s1, hr⟩
    obtain ⟨s2, hr', _⟩ := h1 r s1 hr
    exact ⟨s2, hr'⟩
  · rintro ⟨s1, hr⟩
    obtain ⟨r', s2, hr', rfl, _⟩ := h2 r s1 hr
    exact ⟨s2, hr'⟩

/-- A solver that declines but counts how often it was asked. -/
def countingSolver : Solver Nat Unit Nat where
  fixFailedProduction _ _ _ := fun s => .ok (none, s + 1)
  fixFailedProductions _ _ _ := fun s => .ok (none, s + 1)

/-- It is one that declines, and it is asked: the hypotheses of C28 are met. -/
example : Declines countingSolver ∧
    ∃ g p f, Grammar.new (HashOrder.id Nat) 0 1 exprPs = .ok g ∧
      Built (HashOrder.id Nat) g (some countingSolver) p ∧
      Parses p [⟨none, 15⟩, ⟨none, 15⟩, ⟨none, 16⟩] 0 (.err f) 5 := by
  refine ⟨⟨fun _ _ _ s => ⟨s + 1, rfl⟩, fun _ _ _ s => ⟨s + 1, rfl⟩⟩, ?_⟩
  exact ⟨_, _, _, rfl, Parser.built_of_eval_solver (n := 10) rfl, Parser.parse_returns (n := 30) rfl⟩

/-! ## Lexemes -/

/-- **C32.** Without a solver, replacing (or removing) the lexemes of the input by any function
replaces those of the result in the same way and changes nothing else. -/
theorem C32_lexemes (h h' : HashOrder T) (eps init : T) (ps : List (Production T))
    (g g' : Grammar T) (hg : Grammar.new h eps init ps = .ok g)
    (hg' : Grammar.new h' eps init ps = .ok g') (p : Parser σ L T) (p' : Parser τ L' T)
    (hp : Built h g none p) (hp' : Built h' g' none p') (f : L → Option L')
    (tokens : List (Token L T)) (s : σ) (s' : τ) :
    (∀ r, (∃ s1, Parses p tokens s r s1) →
      ∃ s1, Parses p' (tokens.map (mapToken f)) s' (mapResult f r) s1) ∧
    (∀ r', (∃ s1, Parses p' (tokens.map (mapToken f)) s' r' s1) →
      ∃ r, r' = mapResult f r ∧ ∃ s1, Parses p tokens s r s1) ∧
    (ParsePanics p tokens s ↔ ParsePanics p' (tokens.map (mapToken f)) s') ∧
    (ParseDiverges p tokens s ↔ ParseDiverges p' (tokens.map (mapToken f)) s') := by
  have hs := (Parser.tableParser_of_built hg hp).2
  have hs' := (Parser.tableParser_of_built hg' hp').2
  have P := (Parser.tableParser_of_built hg hp).1.toParserOf
  obtain ⟨h1, h2, h3, h4⟩ := Parser.outcomes_of_sim (R := fun _ _ => True) (s := s) (s' := s')
    (Parser.parseFromTokens_sim (Q := fun _ _ _ => True) (f := f) (tokens := tokens) P
      (Parser.agree_of_built hg hg' hp hp') (fun _ _ _ _ _ _ _ _ _ _ _ => trivial) trivial (by
        intro x pos outs sg failed _ _ _ _
        unfold Parser.tryFixProductions
        rw [hs, hs']
        exact .pure rfl)) trivial
  refine ⟨?_, ?_, h3, h4⟩
  · rintro r ⟨s1, hr⟩
    obtain ⟨s2, hr', _⟩ := h1 r s1 hr
    exact ⟨s2, hr'⟩
  · rintro r' ⟨s1, hr⟩
    obtain ⟨r, s2, hr', rfl, _⟩ := h2 r' s1 hr
    exact ⟨r, rfl, s2, hr'⟩

/-- **C32**, on shapes: two inputs with the same token types have results of the same shape,
whatever lexemes they carry, and panic or diverge together. -/
theorem C32_same_types (h : HashOrder T) (eps init : T) (ps : List (Production T))
    (g : Grammar T) (hg : Grammar.new h eps init ps = .ok g) (p : Parser σ L T)
    (hp : Built h g none p) (tokens tokens' : List (Token L T))
    (ht : tokens.map (·.tType) = tokens'.map (·.tType)) (s : σ) :
    (∀ r s1, Parses p tokens s r s1 → ∃ r' s2, Parses p tokens' s r' s2 ∧ shape r = shape r') ∧
    (ParsePanics p tokens s ↔ ParsePanics p tokens' s) ∧
    (ParseDiverges p tokens s ↔ ParseDiverges p tokens' s) := by
  obtain ⟨q, hq⟩ := Parser.built_exists (σ := Unit) (L := Unit) hg none
  have e : tokens.map (mapToken (fun _ => (none : Option Unit))) =
      tokens'.map (mapToken (fun _ => none)) := by
    have : ∀ l : List (Token L T), l.map (mapToken (fun _ => (none : Option Unit))) =
        (l.map (·.tType)).map (fun x => ⟨none, x⟩) := by
      intro l
      rw [List.map_map]
      apply List.map_congr_left
      intro t _
      cases t with
      | mk lex ty => cases lex <;> rfl
    rw [this, this, ht]
  obtain ⟨a1, a2, a3, a4⟩ := C32_lexemes h h eps init ps g g hg hg p q hp hq (fun _ => none) tokens s ()
  obtain ⟨b1, b2, b3, b4⟩ := C32_lexemes h h eps init ps g g hg hg p q hp hq (fun _ => none) tokens' s ()
  rw [e] at a1 a2 a3 a4
  refine ⟨?_, a3.trans b3.symm, a4.trans b4.symm⟩
  intro r s1 hr
  obtain ⟨r', h1, s2, h2⟩ := b2 _ (a1 r ⟨s1, hr⟩)
  exact ⟨r', s2, h2, h1⟩

/-- The lexemes do reach the result: two inputs that differ only in a lexeme have different trees. -/
example : ∃ g p t t', Grammar.new (HashOrder.id Nat) 0 1 [⟨1, [10]⟩] = .ok g ∧
    Built (σ := Unit) (L := Nat) (HashOrder.id Nat) g none p ∧
    Parses p [⟨some 5, 10⟩] () (.ok t) () ∧ Parses p [⟨some 6, 10⟩] () (.ok t') () ∧
    (leaves 0 t.root).map (·.lex) = [some 5] ∧ (leaves 0 t'.root).map (·.lex) = [some 6] :=
  ⟨_, _, _, _, rfl, Parser.built_of_eval (n := 10) rfl, Parser.parse_returns (n := 10) rfl,
    Parser.parse_returns (n := 10) rfl, rfl, rfl⟩

/-! ## The contract of solver calls -/

/-- A legitimate call of `fix_failed_production`: the position is inside the tokens and the failed
production is that of the last candidate of some symbol on the single path, for the token there. -/
def SingleCall (eps init : T) (ps : List (Production T)) (t : Transitions T)
    (tokens : List (Token L T)) (pos : Nat) (fp : FailedProduction L T) : Prop :=
  ∃ tok x out, SinglePath (candidates t) tokens init x pos ∧ tokens[pos]? = some tok ∧
    [out].IsSuffix (candidates t x tok.tType) ∧
    FailedProdsOk eps ps true (candidates t) tokens [out] [fp]

/-- A legitimate call of `fix_failed_productions`: the position is inside the tokens, the failed
productions are those of the last candidates of some symbol on the single path, for the token there,
in order, and there is not exactly one. -/
def MultiCall (eps init : T) (ps : List (Production T)) (t : Transitions T)
    (tokens : List (Token L T)) (pos : Nat) (fps : List (FailedProduction L T)) : Prop :=
  fps.length ≠ 1 ∧ ∃ tok x outs, SinglePath (candidates t) tokens init x pos ∧
    tokens[pos]? = some tok ∧
    outs.IsSuffix (candidates t x tok.tType) ∧
    FailedProdsOk eps ps true (candidates t) tokens outs fps

/-- **C30.** The parser makes only legitimate calls, with the full token vector: two solvers that
agree on the legitimate calls for these tokens (and may do anything else, such as panic, on all other
calls) give the same run, step for step. -/
theorem C30_only_legitimate_calls (h : HashOrder T) (eps init : T) (ps : List (Production T))
    (g : Grammar T) (hg : Grammar.new h eps init ps = .ok g) (sv sv' : Solver σ L T)
    (p p' : Parser σ L T) (hp : Built h g (some sv) p) (hp' : Built h g (some sv') p')
    (tokens : List (Token L T))
    (h1 : ∀ pos fp s, SingleCall eps init ps p.transitions tokens pos fp →
      sv.fixFailedProduction tokens pos fp s = sv'.fixFailedProduction tokens pos fp s)
    (h2 : ∀ pos fps s, MultiCall eps init ps p.transitions tokens pos fps →
      sv.fixFailedProductions tokens pos fps s = sv'.fixFailedProductions tokens pos fps s)
    (n : Nat) (s : σ) : p.parseFromTokens n tokens s = p'.parseFromTokens n tokens s := by
  have hs := (Parser.tableParser_of_built hg hp).2
  have hs' := (Parser.tableParser_of_built hg hp').2
  have P := (Parser.tableParser_of_built hg hp).1.toParserOf
  have hc : p.getTokenProductions = candidates p.transitions := by
    funext x a
    exact Parser.getTokenProductions_eq p x a
  have hsim := Parser.sim_of_fixSim_inv (R := Eq) P (Parser.agree_of_built hg hg hp hp')
    (tokens := tokens)
    (fun x pos sg => sg = true → SinglePath (candidates p.transitions) tokens init x pos)
    (by
      rintro x pos outs sg hq ⟨tok, htok, hsuf⟩ o ho y hy q hch
      simp only [Parser.isChildSinglePath, Bool.and_eq_true, decide_eq_true_eq] at hch
      obtain ⟨out, rfl⟩ := List.length_eq_one_iff.1 hch.2
      simp only [List.mem_singleton] at ho
      subst ho
      rw [hc] at hsuf
      exact .child x pos tok o y q (hq hch.1) htok hsuf hy)
    (fun _ => .root) (by
      intro pos outs sg failed x hq hpre hf
      have hlen := Parser.FailedProdsOk.length hf
      obtain ⟨tok, htok, hsuf⟩ := hpre
      rw [hc] at hf hsuf
      rw [hs] at hf
      have : Parser.tryFixProductions p tokens pos sg (Parser.isChildSinglePath sg outs) failed =
          Parser.tryFixProductions p' tokens pos sg (Parser.isChildSinglePath sg outs) failed := by
        unfold Parser.tryFixProductions
        rw [hs, hs']
        by_cases hsg : sg = true
        · simp only [if_pos hsg]
          by_cases hch : Parser.isChildSinglePath sg outs = true
          · simp only [if_pos hch]
            have ho : outs.length = 1 := by
              simp only [Parser.isChildSinglePath, hsg, Bool.true_and, decide_eq_true_eq] at hch
              exact hch
            rw [ho] at hlen
            obtain ⟨fp, rfl⟩ := List.length_eq_one_iff.1 hlen
            obtain ⟨out, rfl⟩ := List.length_eq_one_iff.1 ho
            funext t
            exact h1 pos fp t ⟨tok, x, out, hq hsg, htok, hsuf, hf⟩
          · simp only [if_neg hch]
            funext t
            refine h2 pos failed t ⟨?_, tok, x, outs, hq hsg, htok, hsuf, hf⟩
            rw [hlen]
            simp only [Parser.isChildSinglePath, hsg, Bool.true_and, decide_eq_true_eq] at hch
            exact hch
        · simp only [if_neg hsg]
      rw [this]
      intro s s' e
      subst e
      cases Parser.tryFixProductions p' tokens pos sg (Parser.isChildSinglePath sg outs) failed s with
      | ok a => exact ⟨a.2, rfl, rfl⟩
      | panic e => rfl
      | fuel => rfl) n s s rfl
  cases e : p.parseFromTokens n tokens s with
  | ok a =>
    rw [e] at hsim
    obtain ⟨s1, h3, rfl⟩ := hsim
    exact h3.symm
  | panic q => rw [e] at hsim; exact hsim.symm
  | fuel => rw [e] at hsim; exact hsim.symm

/-- What a logged solver call was about: `true` for `fix_failed_productions`, the position, the
number of failed productions. -/
abbrev Call := Bool × Nat × Nat

/-- A solver that declines and logs its calls. -/
def loggingSolver : Solver (List Call) Unit Nat where
  fixFailedProduction _ pos _ := fun s => .ok (none, s ++ [(false, pos, 1)])
  fixFailedProductions _ pos fps := fun s => .ok (none, s ++ [(true, pos, fps.length)])

/-- The documented "the symbol has a single production to be derived with" does not hold:
`S → C b`, `C → a | a a` on `a c`. `C` has two candidates, yet the solver is asked to fix its
production `C → a a` alone, after `C → a` had succeeded and `b` had failed. -/
theorem C30_single_call_with_two_candidates :
    ∃ g p f, Grammar.new (HashOrder.id Nat) 0 1 [⟨1, [2, 11]⟩, ⟨2, [10]⟩, ⟨2, [10, 10]⟩] = .ok g ∧
      Built (HashOrder.id Nat) g (some loggingSolver) p ∧
      candidates p.transitions 2 10 = [[10], [10, 10]] ∧
      candidates p.transitions 1 10 = [[2, 11]] ∧
      Parses p [⟨none, 10⟩, ⟨none, 12⟩] [] (.err f) [(false, 0, 1), (false, 0, 1)] :=
  ⟨_, _, _, rfl, Parser.built_of_eval_solver (n := 10) rfl, rfl, rfl,
    Parser.parse_returns (n := 30) rfl⟩

/-- The documented "multiple productions" includes none at all: `S → a B`, `B → b` on `a c`. -/
theorem C30_multi_call_with_no_production :
    ∃ g p f, Grammar.new (HashOrder.id Nat) 0 1 [⟨1, [10, 2]⟩, ⟨2, [11]⟩] = .ok g ∧
      Built (HashOrder.id Nat) g (some loggingSolver) p ∧
      Parses p [⟨none, 10⟩, ⟨none, 12⟩] [] (.err f) [(true, 1, 0), (false, 0, 1)] :=
  ⟨_, _, _, rfl, Parser.built_of_eval_solver (n := 10) rfl, Parser.parse_returns (n := 30) rfl⟩

/-- A symbol that was parsed successfully and has no candidates left is offered to the solver all the
same: `S → A b`, `A → a` on `a c`. `A → a` succeeds and `b` fails; the solver is asked to fix no
productions at position 0 (for `A`), then the production of `S`. -/
theorem C30_call_for_parsed_symbol :
    ∃ g p f, Grammar.new (HashOrder.id Nat) 0 1 [⟨1, [2, 11]⟩, ⟨2, [10]⟩] = .ok g ∧
      Built (HashOrder.id Nat) g (some loggingSolver) p ∧
      Parses p [⟨none, 10⟩, ⟨none, 12⟩] [] (.err f) [(true, 0, 0), (false, 0, 1)] :=
  ⟨_, _, _, rfl, Parser.built_of_eval_solver (n := 10) rfl, Parser.parse_returns (n := 30) rfl⟩

/-! ## Fixing as a last resort -/

/-- **C29**, the case of several candidates (or none) for the first token: if the parser without a
solver returns `Ok`, the parser with any solver returns the same tree and has not called the solver
in a way that changes its state. Missing of the full property: first tokens with exactly one
candidate, where it is false (`C29_fix_preempts_backtracking`). -/
theorem C29_several_candidates_partial (h h' : HashOrder T) (eps init : T)
    (ps : List (Production T)) (g g' : Grammar T) (hg : Grammar.new h eps init ps = .ok g)
    (hg' : Grammar.new h' eps init ps = .ok g') (sv : Solver τ L T)
    (p : Parser σ L T) (p' : Parser τ L T) (hp : Built h g none p) (hp' : Built h' g' (some sv) p')
    (tok : Token L T) (tokens : List (Token L T))
    (hlen : (candidates p.transitions init tok.tType).length ≠ 1) (s s1 : σ) (tree : Tree L T)
    (hr : Parses p (tok :: tokens) s (.ok tree) s1) (s' : τ) :
    Parses p' (tok :: tokens) s' (.ok tree) s' := by
  have P := (Parser.tableParser_of_built hg hp).1.toParserOf
  obtain ⟨n, hn⟩ := Parser.parses_at hr
  rw [← Parser.getTokenProductions_eq] at hlen
  exact Parser.parse_returns (Parser.ok_of_not_single P (Parser.agree_of_built hg hg' hp hp')
    (Parser.tableParser_of_built hg hp).2 (t := tok) rfl hlen hn s')

/-- **C29**, the case of a table without conflicts. Missing of the full property: tables with
conflicts, where it is false (`C29_fix_preempts_backtracking`). -/
theorem C29_conflict_free_partial (h h' : HashOrder T) (eps init : T)
    (ps : List (Production T)) (g g' : Grammar T) (hg : Grammar.new h eps init ps = .ok g)
    (hg' : Grammar.new h' eps init ps = .ok g') (sv : Solver τ L T)
    (p : Parser σ L T) (p' : Parser τ L T) (hp : Built h g none p) (hp' : Built h' g' (some sv) p')
    (hcf : ConflictFree p.transitions) (tokens : List (Token L T)) (s s1 : σ) (tree : Tree L T)
    (hr : Parses p tokens s (.ok tree) s1) (s' : τ) :
    Parses p' tokens s' (.ok tree) s' := by
  have P := (Parser.tableParser_of_built hg hp).1.toParserOf
  obtain ⟨n, hn⟩ := Parser.parses_at hr
  exact Parser.parse_returns (Parser.ok_of_conflictFree P (Parser.agree_of_built hg hg' hp hp')
    (Parser.tableParser_of_built hg hp).2 (Parser.conflictFree_length hcf) hn s')

/-- A solver that skips one token. -/
def skipOne : Solver Unit Unit Nat where
  fixFailedProduction _ pos _ := pure (some ⟨pos + 1, .mk []⟩)
  fixFailedProductions _ pos _ := pure (some ⟨pos + 1, .mk []⟩)

/-- The full C29 is false: `S → C B`, `C → a | a a`, `B → b` on `a a b`. Without a solver the parser
backtracks into `C` and returns `Ok`; with a solver `B` is fixed first and the result is `Fix`. -/
theorem C29_fix_preempts_backtracking :
    ∃ g p p' tree f,
      Grammar.new (HashOrder.id Nat) 0 1 [⟨1, [2, 3]⟩, ⟨2, [10]⟩, ⟨2, [10, 10]⟩, ⟨3, [11]⟩] = .ok g ∧
      Built (σ := Unit) (L := Unit) (HashOrder.id Nat) g none p ∧
      Built (HashOrder.id Nat) g (some skipOne) p' ∧
      Parses p [⟨none, 10⟩, ⟨none, 10⟩, ⟨none, 11⟩] () (.ok tree) () ∧
      Parses p' [⟨none, 10⟩, ⟨none, 10⟩, ⟨none, 11⟩] () (.fix f) () :=
  ⟨_, _, _, _, _, rfl, Parser.built_of_eval (n := 10) rfl, Parser.built_of_eval_solver (n := 10) rfl,
    Parser.parse_returns (n := 20) rfl, Parser.parse_returns (n := 20) rfl⟩

/-- The hypotheses of the first case are met: `S → C B | c`, `C → a | a a`, `B → b`, and another
production `S → a c` for `a`; the solver would have changed the result otherwise. -/
example : ∃ g p tree,
      Grammar.new (HashOrder.id Nat) 0 1
        [⟨1, [2, 3]⟩, ⟨1, [10, 12]⟩, ⟨2, [10]⟩, ⟨2, [10, 10]⟩, ⟨3, [11]⟩] = .ok g ∧
      Built (σ := Unit) (L := Unit) (HashOrder.id Nat) g none p ∧
      (candidates p.transitions 1 10).length = 2 ∧
      Parses p [⟨none, 10⟩, ⟨none, 10⟩, ⟨none, 11⟩] () (.ok tree) () :=
  ⟨_, _, _, rfl, Parser.built_of_eval (n := 10) rfl, rfl, Parser.parse_returns (n := 20) rfl⟩

/-- The expression grammar has a table without conflicts. -/
theorem exprPs_conflictFree (p : Parser σ L Nat) (h : HashOrder Nat) (g : Grammar Nat)
    (hg : Grammar.new h 0 1 exprPs = .ok g) (solver : Option (Solver σ L Nat))
    (hp : Built h g solver p) : ConflictFree p.transitions := by
  obtain ⟨ff, hff, e⟩ := (Parser.built_iff hg).1 hp
  intro x a l hl
  obtain ⟨t, hsub, hterm⟩ : ∃ t, Transitions.from h g ff = .ok t ∧
      (∀ A a, (t.getProductions A a).isSome ↔ IsNonTerminal exprPs A ∧ IsTerminal exprPs a) := by
    obtain ⟨t, h1, h2, _⟩ := C12_table_cells h 0 1 exprPs g hg ff hff
    exact ⟨t, h1, h2⟩
  have ht := (Parser.from_eq_ok e).2.2
  rw [ht] at hsub
  cases hsub
  have hc := (hterm x a).1 (by simp [hl])
  -- compare with the table under the identity order, which is computed
  obtain ⟨g0, hg0⟩ : ∃ g0, Grammar.new (HashOrder.id Nat) 0 1 exprPs = .ok g0 := ⟨_, rfl⟩
  obtain ⟨ff0, t0, hff0, ht0, hall⟩ : ∃ ff0 t0,
      FirstFollow.from (HashOrder.id Nat) 10 g0 = .ok ff0 ∧
      Transitions.from (HashOrder.id Nat) g0 ff0 = .ok t0 ∧
      ∀ x ∈ [1, 2, 3, 4, 5, 6], ∀ a ∈ [0, 11, 12, 13, 14, 15, 16],
        ((t0.getProductions x a).getD []).length ≤ 1 := by
    cases hg0
    exact ⟨_, _, rfl, rfl, by decide⟩
  rw [C11_table_hash_independent h (HashOrder.id Nat) 0 1 exprPs g g0 ff ff0 _ t0 hg hg0 hff
    (FirstFollow.returns_of_from hff0) ht ht0] at hl
  have hx : x ∈ [1, 2, 3, 4, 5, 6] := by
    obtain ⟨q, hq, rfl⟩ := hc.1
    simp only [exprPs, List.mem_cons, List.not_mem_nil, or_false] at hq
    rcases hq with rfl | rfl | rfl | rfl | rfl | rfl | rfl | rfl | rfl <;> decide
  have ha : a ∈ [0, 11, 12, 13, 14, 15, 16] := by
    obtain ⟨⟨q, hq, hq'⟩, hn⟩ := hc.2
    have hn' : ∀ y ∈ [1, 2, 3, 4, 5, 6], a ≠ y := by
      intro y hy hay
      subst hay
      apply hn
      simp only [List.mem_cons, List.not_mem_nil, or_false] at hy
      rcases hy with rfl | rfl | rfl | rfl | rfl | rfl
      · exact ⟨⟨1, [2, 16]⟩, by decide, rfl⟩
      · exact ⟨⟨2, [4, 3]⟩, by decide, rfl⟩
      · exact ⟨⟨3, [0]⟩, by decide, rfl⟩
      · exact ⟨⟨4, [6, 5]⟩, by decide, rfl⟩
      · exact ⟨⟨5, [0]⟩, by decide, rfl⟩
      · exact ⟨⟨6, [15]⟩, by decide, rfl⟩
    simp only [exprPs, List.mem_cons, List.not_mem_nil, or_false] at hq
    rcases hq with rfl | rfl | rfl | rfl | rfl | rfl | rfl | rfl | rfl <;>
      simp only [List.mem_cons, List.not_mem_nil, or_false] at hq' <;>
      (rcases hq' with rfl | rfl | rfl <;> first | decide | exact absurd rfl (hn' _ (by decide)))
  have := hall x hx a ha
  rw [hl] at this
  exact this

/-- The hypotheses of the second case are met by the expression grammar on `x $`. -/
example : ∃ g p tree, Grammar.new (HashOrder.id Nat) 0 1 exprPs = .ok g ∧
      Built (σ := Unit) (L := Unit) (HashOrder.id Nat) g none p ∧ ConflictFree p.transitions ∧
      Parses p [⟨none, 15⟩, ⟨none, 16⟩] () (.ok tree) () := by
  obtain ⟨g, p, tree, hg, hp, hr⟩ : ∃ g p tree,
      Grammar.new (HashOrder.id Nat) 0 1 exprPs = .ok g ∧
      Built (σ := Unit) (L := Unit) (HashOrder.id Nat) g none p ∧
      Parses p [⟨none, 15⟩, ⟨none, 16⟩] () (.ok tree) () :=
    ⟨_, _, _, rfl, Parser.built_of_eval (n := 10) rfl, Parser.parse_returns (n := 30) rfl⟩
  exact ⟨g, p, tree, hg, hp, exprPs_conflictFree p _ g hg none hp, hr⟩

end Verif.Props
