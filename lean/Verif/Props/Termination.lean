import Verif.Proof.ParserTerm
import Verif.Proof.Rank
import Verif.Proof.Vanish
import Verif.Props.Choice

/-!
# Properties C19, C20: termination
-/

set_option linter.unusedSectionVars false

namespace Verif.Props

open Verif.Spec Verif.Examples

variable {σ L T : Type} [DecidableEq T]

/-- **C19.** If no non-terminal derives, in one or more steps, a form that begins with itself, then
`parse_from_tokens` comes to an end on every token sequence (it returns, or panics as C18 describes),
without a solver and with any solver whose own calls end and whose fixes end behind the position they
were asked for. -/
theorem C19_terminates (h : HashOrder T) (eps init : T) (ps : List (Production T))
    (g : Grammar T) (hg : Grammar.new h eps init ps = .ok g) (solver : Option (Solver σ L T))
    (p : Parser σ L T) (hp : Built h g solver p) (hnlr : NotLeftRecursive eps ps)
    (tokens : List (Token L T)) (hterm : SolverTerminates solver)
    (hprog : SolverProgress solver tokens) (s : σ) :
    (∃ r s', Parses p tokens s r s') ∨ ParsePanics p tokens s := by
  obtain ⟨P, hs⟩ := Parser.tableParser_of_built hg hp
  obtain ⟨n, hn⟩ := Parser.parse_ends (tokens := tokens) P.toParserOf hnlr (hs ▸ hprog) (hs ▸ hterm) s
  cases e : p.parseFromTokens n tokens s with
  | ok r => exact .inl ⟨r.1, r.2, Parser.parse_returns e⟩
  | panic q => exact .inr (Parser.parse_panics e)
  | fuel => exact absurd e hn

/-- The same for a parser made from any FIRST and FOLLOW sets. -/
theorem C19_terminates_any_first_follow (h : HashOrder T) (eps init : T) (ps : List (Production T))
    (g : Grammar T) (hg : Grammar.new h eps init ps = .ok g) (ff : FirstFollow T) (p : Parser σ L T)
    (hp : Parser.fromGrammarAndFirstFollowSymbols h g ff = .ok p) (hnlr : NotLeftRecursive eps ps)
    (tokens : List (Token L T)) (s : σ) :
    (∃ r s', Parses p tokens s r s') ∨ ParsePanics p tokens s := by
  have hs := (Parser.from_eq_ok hp).2.1
  obtain ⟨n, hn⟩ := Parser.parse_ends (tokens := tokens) (Parser.parserOf_of_from hg hp) hnlr
    (by rw [hs]; rintro pos r ⟨_, sv, _, _, h, _⟩; simp at h) (by rw [hs]; intro sv h; simp at h) s
  cases e : p.parseFromTokens n tokens s with
  | ok r => exact .inl ⟨r.1, r.2, Parser.parse_returns e⟩
  | panic q => exact .inr (Parser.parse_panics e)
  | fuel => exact absurd e hn

/-- The expression grammar is not left-recursive. -/
theorem exprPs_notLeftRecursive : NotLeftRecursive 0 exprPs :=
  notLeftRecursive_of_rank (fun x => x == 3 || x == 5)
    (fun x => if x = 1 then 4 else if x = 2 then 3 else if x = 4 then 2 else if x = 6 then 1
      else if x = 3 then 1 else if x = 5 then 1 else 0) (by decide)

/-- A solver that skips one token in every call. -/
def skipping : Solver Unit Unit Nat where
  fixFailedProduction _ pos _ := pure (some ⟨pos + 1, .mk []⟩)
  fixFailedProductions _ pos _ := pure (some ⟨pos + 1, .mk []⟩)

/-- The hypotheses of C19 on the solver are met by it, on every token sequence. -/
example (tokens : List (Token Unit Nat)) :
    SolverTerminates (some skipping) ∧ SolverProgress (some skipping) tokens := by
  constructor
  · intro sv hsv
    cases hsv
    exact ⟨fun _ _ _ _ => by simp [skipping], fun _ _ _ _ => by simp [skipping]⟩
  · rintro pos r ⟨_, sv, s, s', hsv, h⟩
    cases hsv
    rcases h with ⟨f, h⟩ | ⟨f, h⟩ <;>
      · simp only [skipping, M.pure_apply, Out.ok.injEq, Prod.mk.injEq, Option.some.injEq] at h
        rw [← h.1]; simp

/-- **C20.** If, from the initial symbol on, the first symbol of the first candidate for the first
token always is a non-terminal again (`S` is the set of symbols met on the way), `parse_from_tokens`
never returns: with or without a solver, whatever follows. -/
theorem C20_diverges (h : HashOrder T) (eps init : T) (ps : List (Production T))
    (g : Grammar T) (hg : Grammar.new h eps init ps = .ok g) (solver : Option (Solver σ L T))
    (p : Parser σ L T) (hp : Built h g solver p) (t : Token L T) (rest : List (Token L T))
    (S : T → Prop) (hinit : S init)
    (hS : ∀ x, S x → ∃ y out outs, candidates p.transitions x t.tType = (y :: out) :: outs ∧
      IsNonTerminal ps y ∧ S y) (s : σ) :
    ParseDiverges p (t :: rest) s := by
  obtain ⟨P, _⟩ := Parser.tableParser_of_built hg hp
  intro n
  have := Parser.innerParse_diverges (p := p) (rest := rest) (t := t) rfl S (by
    intro x hx
    obtain ⟨y, out, outs, h1, h2, h3⟩ := hS x hx
    rw [← Parser.getTokenProductions_eq] at h1
    exact ⟨y, out, outs, h1, (Parser.isNT_iff P.toParserOf y).2 h2, h3⟩) n init hinit true s
  simp only [Parser.parseFromTokens, List.length_cons, Nat.add_eq_zero_iff, Nat.one_ne_zero, and_false,
    if_false, List.getElem?_cons_zero, P.grammar.init_eq]
  rw [M.bind_apply, this]

/-- **C20**, the common case: a directly left-recursive production listed first for the token. -/
theorem C20_direct_left_recursion (h : HashOrder T) (eps init : T) (ps : List (Production T))
    (g : Grammar T) (hg : Grammar.new h eps init ps = .ok g) (solver : Option (Solver σ L T))
    (p : Parser σ L T) (hp : Built h g solver p) (t : Token L T) (rest : List (Token L T))
    (out : List T) (outs : List (List T))
    (hc : candidates p.transitions init t.tType = (init :: out) :: outs) (s : σ) :
    ParseDiverges p (t :: rest) s := by
  obtain ⟨P, _⟩ := Parser.tableParser_of_built hg hp
  refine C20_diverges h eps init ps g hg solver p hp t rest (· = init) rfl ?_ s
  rintro x rfl
  refine ⟨x, out, outs, hc, ?_, rfl⟩
  have : (x :: out) ∈ p.getTokenProductions x t.tType := by
    rw [Parser.getTokenProductions_eq, hc]; simp
  exact ⟨_, P.cand _ _ _ this, rfl⟩

/-- `S → S a | B`, `B → ε | b` diverges on every input that begins with `b`. -/
example (rest : List (Token Unit Nat)) : ∃ g p, Grammar.new (HashOrder.id Nat) 0 1 leftPs = .ok g ∧
    Built (σ := Unit) (L := Unit) (HashOrder.id Nat) g none p ∧
    ParseDiverges p (⟨none, 11⟩ :: rest) () := by
  obtain ⟨g, p, hg, hp, hc⟩ : ∃ g p, Grammar.new (HashOrder.id Nat) 0 1 leftPs = .ok g ∧
      Built (σ := Unit) (L := Unit) (HashOrder.id Nat) g none p ∧
      candidates p.transitions 1 11 = [[1, 10], [2]] :=
    ⟨_, _, rfl, Parser.built_of_eval (n := 10) rfl, rfl⟩
  exact ⟨g, p, hg, hp, C20_direct_left_recursion _ 0 1 leftPs g hg none p hp ⟨none, 11⟩ rest [10] [[2]]
    hc ()⟩

/-- **C20**, hidden left recursion (without a solver): it is enough that, from the initial symbol on,
the first candidate for the first token leads to a non-terminal again behind symbols whose own first
candidates derive the empty string. -/
theorem C20_diverges_hidden (h : HashOrder T) (eps init : T) (ps : List (Production T))
    (g : Grammar T) (hg : Grammar.new h eps init ps = .ok g) (p : Parser σ L T)
    (hp : Built h g none p) (t : Token L T) (rest : List (Token L T)) (S : T → Prop) (hinit : S init)
    (hS : Loops eps ps (candidates p.transitions) t.tType S) (s : σ) :
    ParseDiverges p (t :: rest) s := by
  refine (C24_ordered_choice h eps init ps g hg p hp t rest s).2.2.2.2 ?_
  rintro ⟨r, hr⟩
  have heps : ¬ IsNonTerminal ps eps := by
    rintro ⟨q, hq, e⟩
    exact ((Grammar.grammarOf_of_new hg).wf q hq).1 e
  exact (choice_loops heps hS hr rfl).2 hinit rfl

/-- `S → A S b | c`, `A → ε | a` diverges on every input that begins with `a` (`S = 1, A = 2, a = 10,
b = 11, c = 12`), although `a c b` is a sentence. -/
example (rest : List (Token Unit Nat)) : ∃ g p,
    Grammar.new (HashOrder.id Nat) 0 1 [⟨1, [2, 1, 11]⟩, ⟨1, [12]⟩, ⟨2, [0]⟩, ⟨2, [10]⟩] = .ok g ∧
    Built (σ := Unit) (L := Unit) (HashOrder.id Nat) g none p ∧
    ParseDiverges p (⟨none, 10⟩ :: rest) () := by
  obtain ⟨g, p, hg, hp, hc, hc'⟩ : ∃ g p,
      Grammar.new (HashOrder.id Nat) 0 1 [⟨1, [2, 1, 11]⟩, ⟨1, [12]⟩, ⟨2, [0]⟩, ⟨2, [10]⟩] = .ok g ∧
      Built (σ := Unit) (L := Unit) (HashOrder.id Nat) g none p ∧
      candidates p.transitions 1 10 = [[2, 1, 11]] ∧ candidates p.transitions 2 10 = [[0], [10]] :=
    ⟨_, _, rfl, Parser.built_of_eval (n := 10) rfl, rfl, rfl⟩
  refine ⟨g, p, hg, hp, C20_diverges_hidden _ 0 1 _ g hg p hp ⟨none, 10⟩ rest (· = 1) rfl ?_ ()⟩
  rintro _ rfl
  refine ⟨[2], 1, [11], [], hc, .nonTerminal 2 [] [0] [[10]] ⟨⟨2, [0]⟩, by simp⟩ hc' ?_ .nil,
    ⟨⟨1, [12]⟩, by simp⟩, rfl⟩
  exact .eps [] .nil

end Verif.Props
