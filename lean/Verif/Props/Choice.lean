import Verif.Proof.EndMarker
import Verif.Props.Results
import Verif.Spec.Examples

/-!
# Properties C17, C18, C24: what `parse_from_tokens` computes without a solver, end of input
-/

set_option linter.unusedSectionVars false

namespace Verif.Props

open Verif.Spec Verif.Examples

variable {σ L T : Type} [DecidableEq T]

/-- **C24.** Without a solver the result is that of the search of Spec.OrderedChoice over the table
of the parser: on a token sequence that begins with `t`, `Ok(tree)` is returned iff the search for the
initial symbol at position 0 finds `tree`; `Err` iff it fails; the parser panics iff the search runs
out of input; and it never returns iff the search has no outcome. The solver state is not touched. -/
theorem C24_ordered_choice (h : HashOrder T) (eps init : T) (ps : List (Production T))
    (g : Grammar T) (hg : Grammar.new h eps init ps = .ok g) (p : Parser σ L T)
    (hp : Built h g none p) (t : Token L T) (ts : List (Token L T)) (s : σ) :
    (∀ tree s', Parses p (t :: ts) s (.ok tree) s' ↔ s' = s ∧ ∃ q rest,
      Choice eps ps (candidates p.transitions) (t :: ts) init 0 (candidates p.transitions init t.tType)
        (.found (tree.root, q, rest))) ∧
    ((∃ f s', Parses p (t :: ts) s (.err f) s') ↔
      Choice eps ps (candidates p.transitions) (t :: ts) init 0 (candidates p.transitions init t.tType)
        .failed) ∧
    (ParsePanics p (t :: ts) s ↔
      Choice eps ps (candidates p.transitions) (t :: ts) init 0 (candidates p.transitions init t.tType)
        .ranOut) ∧
    (ParseDiverges p (t :: ts) s ↔ ¬ ∃ r,
      Choice eps ps (candidates p.transitions) (t :: ts) init 0 (candidates p.transitions init t.tType)
        r) := by
  obtain ⟨P, hs⟩ := Parser.tableParser_of_built hg hp
  have := Parser.parse_iff_choice P.toParserOf hs t ts s
  rwa [show p.getTokenProductions = candidates p.transitions from
    funext fun x => funext fun a => Parser.getTokenProductions_eq p x a] at this

/-- The same for a parser made from any FIRST and FOLLOW sets. -/
theorem C24_ordered_choice_any_first_follow (h : HashOrder T) (eps init : T)
    (ps : List (Production T)) (g : Grammar T) (hg : Grammar.new h eps init ps = .ok g)
    (ff : FirstFollow T) (p : Parser σ L T)
    (hp : Parser.fromGrammarAndFirstFollowSymbols h g ff = .ok p) (t : Token L T)
    (ts : List (Token L T)) (s : σ) :
    (∀ tree s', Parses p (t :: ts) s (.ok tree) s' ↔ s' = s ∧ ∃ q rest,
      Choice eps ps (candidates p.transitions) (t :: ts) init 0 (candidates p.transitions init t.tType)
        (.found (tree.root, q, rest))) ∧
    ((∃ f s', Parses p (t :: ts) s (.err f) s') ↔
      Choice eps ps (candidates p.transitions) (t :: ts) init 0 (candidates p.transitions init t.tType)
        .failed) ∧
    (ParsePanics p (t :: ts) s ↔
      Choice eps ps (candidates p.transitions) (t :: ts) init 0 (candidates p.transitions init t.tType)
        .ranOut) ∧
    (ParseDiverges p (t :: ts) s ↔ ¬ ∃ r,
      Choice eps ps (candidates p.transitions) (t :: ts) init 0 (candidates p.transitions init t.tType)
        r) := by
  have := Parser.parse_iff_choice (Parser.parserOf_of_from hg hp) (Parser.from_eq_ok hp).2.1 t ts s
  rwa [show p.getTokenProductions = candidates p.transitions from
    funext fun x => funext fun a => Parser.getTokenProductions_eq p x a] at this

/-- A grammar that needs backtracking: `S → A b | A c`, `A → a | a a`, with
`S = 1, A = 2, a = 10, b = 11, c = 12`. -/
def backPs : List (Production Nat) := [⟨1, [2, 11]⟩, ⟨1, [2, 12]⟩, ⟨2, [10]⟩, ⟨2, [10, 10]⟩]

/-- A non-trivial run of C24: `a a c` needs a retry of `A` and the second candidate of `S`. -/
example : ∃ g p, Grammar.new (HashOrder.id Nat) 0 1 backPs = .ok g ∧
    Built (HashOrder.id Nat) g none p ∧
    Parses p [⟨some "x", 10⟩, ⟨some "y", 10⟩, ⟨some "z", 12⟩] ()
      (.ok ⟨.mk [.mk [.mk [] ⟨some "x", 10⟩, .mk [] ⟨some "y", 10⟩] ⟨none, 2⟩, .mk [] ⟨some "z", 12⟩]
        ⟨none, 1⟩⟩) () :=
  ⟨_, _, rfl, Parser.built_of_eval (n := 10) rfl, Parser.parse_returns (n := 20) rfl⟩

/-! ## The end of the input -/

/-- **C17**, for end-marked grammars and inputs, with any solver: every input token is a leaf of an
`Ok` tree. Missing: inputs and grammars without an end marker, for which the claim is false of the
pinned code (`C17_trailing_tokens_ignored`). -/
theorem C17_whole_input_partial (h : HashOrder T) (eps init : T) (ps : List (Production T))
    (g : Grammar T) (hg : Grammar.new h eps init ps = .ok g) (solver : Option (Solver σ L T))
    (p : Parser σ L T) (hp : Built h g solver p) (e : T) (hem : EndMarked eps init e ps)
    (tokens : List (Token L T)) (hin : EndsWith e tokens) (s s' : σ) (tree : Tree L T)
    (hr : Parses p tokens s (.ok tree) s') :
    leaves eps tree.root = tokens ∧ IsTree eps ps init tokens tree.root := by
  obtain ⟨P, _⟩ := Parser.tableParser_of_built hg hp
  obtain ⟨k, _, hnt, htree, _, hl⟩ := ok_tree P.toParserOf hr
  obtain ⟨w, t, hw, ht⟩ := Parser.tree_ends P.grammar.wf hem hnt htree
  have hk := Parser.take_of_ends hin hw ht
  rw [hk] at htree hl
  exact ⟨hl, htree⟩

/-- A grammar without end marker: `S → a`, with `S = 1, a = 10`. -/
def onlyA : List (Production Nat) := [⟨1, [10]⟩]

/-- **C17 is false of the pinned code** in general: for `S → a`, the input `a b` (and `a` followed by
anything) is accepted, the tree has the one leaf `a`. -/
theorem C17_trailing_tokens_ignored : ∃ g p, Grammar.new (HashOrder.id Nat) 0 1 onlyA = .ok g ∧
    Built (HashOrder.id Nat) g none p ∧
    ∀ rest : List (Token Unit Nat), Parses p (⟨none, 10⟩ :: rest) ()
      (.ok ⟨.mk [.mk [] ⟨none, 10⟩] ⟨none, 1⟩⟩) () :=
  ⟨_, _, rfl, Parser.built_of_eval (n := 10) rfl, fun _ => Parser.parse_returns (n := 10) rfl⟩

/-- **C18**, first half: the empty input panics, for every parser. -/
theorem C18_empty_input_panics (p : Parser σ L T) (s : σ) : ParsePanics p [] s :=
  Parser.parse_panics (n := 0) (e := .emptyInput) rfl

/-- **C18**, second half, for end-marked grammars and inputs without a solver. Missing: other grammars
and inputs, for which the claim is false of the pinned code (`C18_input_runs_out`). -/
theorem C18_no_panic_partial (h : HashOrder T) (eps init : T) (ps : List (Production T))
    (g : Grammar T) (hg : Grammar.new h eps init ps = .ok g)
    (p : Parser σ L T) (hp : Built h g none p) (e : T) (hem : EndMarked eps init e ps)
    (tokens : List (Token L T)) (hin : EndsWith e tokens) (s : σ) : ¬ ParsePanics p tokens s := by
  obtain ⟨P, hs⟩ := Parser.tableParser_of_built hg hp
  exact Parser.no_panic_of_endMarked P.toParserOf hs hem hin s

/-- `S → a B`, `B → b`, with `S = 1, B = 2, a = 10, b = 11`. -/
def runOutPs : List (Production Nat) := [⟨1, [10, 2]⟩, ⟨2, [11]⟩]

/-- **C18 is false of the pinned code** in general: for `S → a B`, `B → b` the input `a` makes the
parser panic (`unwrap` of `None`) instead of returning `Err`. -/
theorem C18_input_runs_out : ∃ g p, Grammar.new (HashOrder.id Nat) 0 1 runOutPs = .ok g ∧
    Built (HashOrder.id Nat) g none p ∧
    ParsePanics p [(⟨none, 10⟩ : Token Unit Nat)] () :=
  ⟨_, _, rfl, Parser.built_of_eval (n := 10) rfl, Parser.parse_panics (n := 10) (e := .unwrapNone) rfl⟩

theorem exprPs_endMarked : EndMarked 0 1 16 exprPs where
  ne_eps := by decide
  terminal := by unfold IsNonTerminal; decide
  initial_once := by decide
  initial_ends := by
    intro p hp hi
    refine ⟨[2], ?_, by decide⟩
    revert p
    decide
  only_there := by decide

theorem endsWith_example : EndsWith 16 ([⟨some "x", 15⟩, ⟨none, 16⟩] : List (Token String Nat)) :=
  ⟨[⟨some "x", 15⟩], ⟨none, 16⟩, rfl, rfl, by simp⟩

/-- The hypotheses of C17 are met by a parse of `id $` in the expression grammar. -/
example : ∃ g p tree, Grammar.new (HashOrder.id Nat) 0 1 exprPs = .ok g ∧
    Built (HashOrder.id Nat) g none p ∧
    Parses p ([⟨some "x", 15⟩, ⟨none, 16⟩] : List (Token String Nat)) () (.ok tree) () ∧
    EndMarked 0 1 16 exprPs ∧
    EndsWith 16 ([⟨some "x", 15⟩, ⟨none, 16⟩] : List (Token String Nat)) :=
  ⟨_, _, _, rfl, Parser.built_of_eval (n := 10) rfl, Parser.parse_returns (n := 20) rfl,
    exprPs_endMarked, endsWith_example⟩

end Verif.Props
