import Verif.Model.Parser

/-!
# The unit tests of the repository, replayed on the model

These are tests, not proofs of properties: each `example` evaluates the model on the literals of one
`#[test]` of /repo and checks the answer the Rust test asserts. They are here to check the model
against the code. Symbols are numbers, `0` is epsilon. Every test is run for two different hash
iteration orders. The Rust comparisons of trees ignore lexemes (`Token::eq`); the ones here do not.
-/

namespace Verif.Tests

/-- `ContextFreeGrammar::new` with epsilon `0`. -/
def mkGrammar (h : HashOrder Nat) (init : Nat) (ps : List (Production Nat)) : Out (Grammar Nat) :=
  Grammar.new h 0 init ps

/-- `FirstFollowSymbols::from` of that grammar. -/
def mkFF (h : HashOrder Nat) (init : Nat) (ps : List (Production Nat)) :
    Out (FirstFollow Nat) := do
  let g ← mkGrammar h init ps
  FirstFollow.from h 20 g

/-- The cell of the table of that grammar. -/
def cell (h : HashOrder Nat) (init : Nat) (ps : List (Production Nat)) (x a : Nat) :
    Out (Option (List (Production Nat))) := do
  let g ← mkGrammar h init ps
  let ff ← FirstFollow.from h 20 g
  let t ← Transitions.from h g ff
  .ok (t.getProductions x a)

/-- `RecursiveDescentParser::from_grammar(..).parse_from_tokens(..)`, all lexemes `Some(0)`. -/
def parse (h : HashOrder Nat) (init : Nat) (ps : List (Production Nat)) (ts : List Nat) :
    Out (ParseResult Nat Nat) := do
  let g ← mkGrammar h init ps
  let p ← Parser.fromGrammar (σ := Unit) (L := Nat) h 20 g
  let r ← p.parseFromTokens 20 (ts.map (fun x => ⟨some 0, x⟩)) ()
  .ok r.1

/-- A leaf of the expected tree. -/
def leaf (x : Nat) : Node Nat Nat := .mk [] ⟨some 0, x⟩

/-- An inner node of the expected tree. -/
def inner (x : Nat) (c : List (Node Nat Nat)) : Node Nat Nat := .mk c ⟨none, x⟩

/-- The two orders. -/
def both (P : HashOrder Nat → Prop) : Prop := P (.id Nat) ∧ P (.rev Nat)

/-- The outcome is a set with the given size and members. -/
def isSet (o : Out (Option (List Nat))) (n : Nat) (xs : List Nat) : Bool :=
  match o with
  | .ok (some s) => s.length == n && xs.all (fun x => s.contains x)
  | _ => false

/-! ## context_free_grammar_spec.rs -/

/-- it_creates_a_new_instance -/
example : both fun h => ∃ g, mkGrammar h 1 [⟨1, [10, 11]⟩] = .ok g := ⟨⟨_, rfl⟩, ⟨_, rfl⟩⟩
/-- it_panics_if_production_input_is_epsilon -/
example : both fun h => mkGrammar h 1 [⟨0, [10]⟩] = .panic .epsilonInput := ⟨rfl, rfl⟩
/-- it_panics_if_production_output_has_no_symbols -/
example : both fun h => mkGrammar h 1 [⟨1, []⟩] = .panic .emptyOutput := ⟨rfl, rfl⟩
/-- it_panics_if_production_output_has_epsilon_and_any_other_symbol -/
example : both fun h => mkGrammar h 1 [⟨1, [10, 0]⟩] = .panic .epsilonMixed := ⟨rfl, rfl⟩

/-! ## first_follow_symbols_spec.rs (Module = 1, Expression = 2, Id = 10, Eof = 11, Eos = 12) -/

/-- FIRST of `x`. -/
def first (h : HashOrder Nat) (init : Nat) (ps : List (Production Nat)) (x : Nat) :
    Out (Option (List Nat)) := (·.getFirstSymbols x) <$> mkFF h init ps

/-- FOLLOW of `x`. -/
def follow (h : HashOrder Nat) (init : Nat) (ps : List (Production Nat)) (x : Nat) :
    Out (Option (List Nat)) := (·.getFollowSymbols x) <$> mkFF h init ps

/-- it_returns_first_symbols -/
example : both fun h => isSet (first h 1 [⟨1, [10, 11]⟩] 1) 1 [10] = true := ⟨rfl, rfl⟩
/-- it_returns_first_symbols_terminal -/
example : both fun h => isSet (first h 1 [⟨1, [10, 11]⟩] 10) 1 [10] = true := ⟨rfl, rfl⟩
/-- it_returns_first_symbols_non_terminal -/
example : both fun h => isSet (first h 1 [⟨1, [2, 11]⟩, ⟨2, [10, 12]⟩] 1) 1 [10] = true := ⟨rfl, rfl⟩
/-- it_returns_first_symbols_non_terminal_epsilon -/
example : both fun h =>
    isSet (first h 1 [⟨1, [2, 11]⟩, ⟨2, [10, 12]⟩, ⟨2, [0]⟩] 1) 2 [10, 11] = true := ⟨rfl, rfl⟩
/-- it_returns_first_epsilon_symbols_non_terminal_epsilon -/
example : both fun h =>
    isSet (first h 1 [⟨1, [2]⟩, ⟨2, [10, 12]⟩, ⟨2, [0]⟩] 1) 2 [0, 10] = true := ⟨rfl, rfl⟩
/-- it_returns_no_additional_first_symbols_on_infinite_recursion -/
example : both fun h => isSet (first h 1 [⟨1, [1]⟩] 1) 0 [] = true := ⟨rfl, rfl⟩
/-- it_returns_next_symbol_first_symbols_on_infinite_recursion_if_first_symbol_contains_epsilon -/
example : both fun h => isSet (first h 1 [⟨1, [1, 11]⟩, ⟨1, [0]⟩] 1) 2 [0, 11] = true := ⟨rfl, rfl⟩
/-- it_returns_follow_symbols -/
example : both fun h => isSet (follow h 1 [⟨1, [2, 11]⟩, ⟨2, [10]⟩] 2) 1 [11] = true := ⟨rfl, rfl⟩
/-- it_returns_follow_symbols_non_terminal -/
example : both fun h => isSet (follow h 1 [⟨1, [2, 1, 11]⟩, ⟨2, [10]⟩] 2) 1 [10] = true := ⟨rfl, rfl⟩

/-- S = 1, A = 2, B = 3, C = 4, a = 10, na = 11, ns = 12, s = 13 -/
def lastPs : List (Production Nat) := [⟨1, [2]⟩, ⟨3, [2, 11]⟩, ⟨4, [1, 12]⟩, ⟨2, [10]⟩, ⟨1, [13]⟩]
/-- it_returns_follow_symbols_non_terminal_last -/
example : both fun h => isSet (follow h 1 lastPs 2) 2 [11, 12] = true := ⟨rfl, rfl⟩
/-- it_returns_follow_symbols_non_terminal_last -/
example : both fun h => isSet (follow h 1 lastPs 1) 1 [12] = true := ⟨rfl, rfl⟩
/-- it_returns_follow_symbols_non_terminal_last_epsilon_chain (S = 1, A = 2, B = 3, R = 4) -/
example : both fun h =>
    isSet (follow h 4 [⟨1, [2, 3]⟩, ⟨2, [0]⟩, ⟨3, [0]⟩, ⟨4, [1, 10]⟩] 2) 1 [10] = true := ⟨rfl, rfl⟩
/-- it_returns_follow_symbols_non_terminal_epsilon_chain (S = 1, A = 2, B = 3, C = 4) -/
example : both fun h =>
    isSet (follow h 1 [⟨1, [2, 3, 4]⟩, ⟨2, [10]⟩, ⟨3, [0]⟩, ⟨3, [11]⟩, ⟨4, [12]⟩] 2) 2 [11, 12]
      = true := ⟨rfl, rfl⟩

/-! ## recursive_descent_parser_transitions_spec.rs (Module = 1, Expression = 2, Sentence = 3,
Id = 10, Eof = 11, Eos = 12, Eq = 13) -/

/-- it_adds_first_symbols_productions -/
example : both fun h =>
    cell h 1 [⟨1, [2, 11]⟩, ⟨2, [10, 12]⟩] 1 10 = .ok (some [⟨1, [2, 11]⟩]) := ⟨rfl, rfl⟩
/-- it_adds_follow_symbols_productions -/
example : both fun h =>
    cell h 1 [⟨1, [3, 11]⟩, ⟨3, [0]⟩, ⟨3, [10, 13, 2, 12]⟩, ⟨2, [10]⟩] 1 10
      = .ok (some [⟨1, [3, 11]⟩]) := ⟨rfl, rfl⟩
/-- it_adds_once_on_first_follow_conflict -/
example : both fun h =>
    cell h 1 [⟨1, [3, 3, 11]⟩, ⟨3, [0]⟩, ⟨3, [10, 13, 2, 12]⟩, ⟨2, [10]⟩] 1 10
      = .ok (some [⟨1, [3, 3, 11]⟩]) := ⟨rfl, rfl⟩
/-- it_adds_on_non_terminal_symbol_with_first_set_is_epsilon (S = 1, Empty = 2, Eof = 11) -/
example : both fun h => cell h 1 [⟨1, [2, 11]⟩, ⟨2, [0]⟩] 2 11 = .ok (some [⟨2, [0]⟩]) := ⟨rfl, rfl⟩

/-! ## recursive_descent_parser_spec.rs (S = 1, A = 2, B = 3, a = 10, b = 11, c = 12, d = 13,
common = 14, Eof = 15) -/

/-- it_does_not_parse_empty_input -/
example : both fun h => parse h 1 [⟨1, [0]⟩] [] = .panic .emptyInput := ⟨rfl, rfl⟩
/-- it_parses_terminal_production -/
example : both fun h =>
    parse h 1 [⟨1, [15]⟩] [15] = .ok (.ok ⟨inner 1 [leaf 15]⟩) := ⟨rfl, rfl⟩
/-- it_parses_epsilon_production -/
example : both fun h =>
    parse h 1 [⟨1, [2, 15]⟩, ⟨2, [0]⟩] [15]
      = .ok (.ok ⟨inner 1 [inner 2 [inner 0 []], leaf 15]⟩) := ⟨rfl, rfl⟩

/-- `S → A Eof | B Eof`, `A → common a`, `B → common b`. -/
def conflictPs : List (Production Nat) := [⟨1, [2, 15]⟩, ⟨1, [3, 15]⟩, ⟨2, [14, 10]⟩, ⟨3, [14, 11]⟩]
/-- it_parses_with_first_first_conflict -/
example : both fun h => parse h 1 conflictPs [14, 10, 15]
    = .ok (.ok ⟨inner 1 [inner 2 [leaf 14, leaf 10], leaf 15]⟩) := ⟨rfl, rfl⟩
/-- it_parses_with_first_first_conflict -/
example : both fun h => parse h 1 conflictPs [14, 11, 15]
    = .ok (.ok ⟨inner 1 [inner 3 [leaf 14, leaf 11], leaf 15]⟩) := ⟨rfl, rfl⟩

/-- `S → A B Eof`, `A → a b | a`, `B → b c d | c`. -/
def backtrackPs : List (Production Nat) :=
  [⟨1, [2, 3, 15]⟩, ⟨2, [10, 11]⟩, ⟨2, [10]⟩, ⟨3, [11, 12, 13]⟩, ⟨3, [12]⟩]
/-- it_parses_with_production_backtracking -/
example : both fun h => parse h 1 backtrackPs [10, 11, 12, 15]
    = .ok (.ok ⟨inner 1 [inner 2 [leaf 10, leaf 11], inner 3 [leaf 12], leaf 15]⟩) := ⟨rfl, rfl⟩
/-- it_parses_with_production_backtracking -/
example : both fun h => parse h 1 backtrackPs [10, 11, 12, 13, 15]
    = .ok (.ok ⟨inner 1 [inner 2 [leaf 10], inner 3 [leaf 11, leaf 12, leaf 13], leaf 15]⟩) :=
  ⟨rfl, rfl⟩

/-- it_fails_on_unexpected_symbol_when_no_production_is_found -/
example : both fun h => parse h 1 [⟨1, [10]⟩] [11] = .ok (.err (.mk [] 1)) := ⟨rfl, rfl⟩
/-- it_fails_on_unexpected_symbol_when_a_production_is_found -/
example : both fun h => parse h 1 [⟨1, [10, 10]⟩] [10, 11]
    = .ok (.err (.mk [.mk (.mk [] 10) [.ok (leaf 10)] []] 1)) := ⟨rfl, rfl⟩
/-- it_fails_on_unexpected_symbol_when_a_production_is_found_with_parsed_symbols_ordered -/
example : both fun h => parse h 1 [⟨1, [10, 11, 10]⟩] [10, 11]
    = .ok (.err (.mk [.mk (.mk [] 10) [.ok (leaf 10), .ok (leaf 11)] []] 1)) := ⟨rfl, rfl⟩
/-- it_fails_on_unexpected_symbol_when_multiple_productions_are_found -/
example : both fun h => parse h 1 [⟨1, [10, 10]⟩, ⟨1, [10, 10, 10]⟩] [10, 11]
    = .ok (.err (.mk [.mk (.mk [] 10) [.ok (leaf 10)] [], .mk (.mk [] 10) [.ok (leaf 10)] [10]] 1)) :=
  ⟨rfl, rfl⟩

end Verif.Tests
