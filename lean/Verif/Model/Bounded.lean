import Verif.Model.Parser

/-!
# Model: the parser with a bounded call stack, or a bounded number of calls

The same code as in Model.Parser, with separate bounds for the depth of the recursion and for the
number of iterations of a `while` loop, so that statements about the depth of the call stack can be
made. Between two nested calls of `inner_parse_from_tokens` there are at most four other calls on the
stack (recursive_descent_parser.rs:195, 288, 333, 519 and 449; or 195, 288, 346 and 554).
-/

namespace Verif.Parser

variable {σ L T : Type} [DecidableEq T]

/-- `inner_parse_from_tokens`, recursive_descent_parser.rs:186-221, with at most `depth` nested calls
of itself and at most `loop` iterations of each `while` loop 331-369. Running into a bound gives
`fuel`. -/
def innerParseWithin (p : Parser σ L T) (tokens : List (Token L T)) (loop : Nat) :
    Nat → Rec σ L T
  | 0, _, _, _, _ => M.fuel
  | depth + 1, x, pos, outputs, single => do
    let childSingle := isChildSinglePath single outputs
    match ← tryParseProductionsLoop p tokens (innerParseWithin p tokens loop depth) loop x pos
      childSingle outputs [] with
    | .ok r => pure r
    | .error failed => do
      let fix ← tryFixProductions p tokens pos single childSingle failed
      pure (fixOptionToResult failed fix x)

/-- `parse_from_tokens`, recursive_descent_parser.rs:120-148, with the bounds of `innerParseWithin`. -/
def parseFromTokensWithin (p : Parser σ L T) (depth loop : Nat) (tokens : List (Token L T)) :
    M σ (ParseResult L T) :=
  if tokens.length = 0 then M.panic .emptyInput
  else
    match tokens[0]? with
    | none => M.panic .unwrapNone
    | some t => do
      let r ← innerParseWithin p tokens loop depth p.grammar.initialSymbol 0
        (p.getTokenProductions p.grammar.initialSymbol t.tType) true
      pure (toParseResult r)

/-- `inner_parse_from_tokens`, recursive_descent_parser.rs:186-221, for a parser without a solver, where
the state that is threaded through the parser is the number of calls of this function that may still be
made. Running out of calls (or of `depth` nested calls, or of `loop` iterations of a `while` loop 331-369)
gives `fuel`. -/
def innerParseCalls (p : Parser Nat L T) (tokens : List (Token L T)) (loop : Nat) :
    Nat → Rec Nat L T
  | 0, _, _, _, _ => M.fuel
  | depth + 1, x, pos, outputs, single => fun calls =>
    match calls with
    | 0 => .fuel
    | calls + 1 =>
      (do
        let childSingle := isChildSinglePath single outputs
        match ← tryParseProductionsLoop p tokens (innerParseCalls p tokens loop depth) loop x pos
          childSingle outputs [] with
        | .ok r => pure r
        | .error failed => do
          let fix ← tryFixProductions p tokens pos single childSingle failed
          pure (fixOptionToResult failed fix x) : M Nat (ParseSymbolResult L T)) calls

/-- `parse_from_tokens`, recursive_descent_parser.rs:120-148, with at most `calls` calls of
`inner_parse_from_tokens` (nested or not) and at most `loop` iterations of each `while` loop 331-369. -/
def parseFromTokensCalls (p : Parser Nat L T) (calls loop : Nat) (tokens : List (Token L T)) :
    Out (ParseResult L T × Nat) :=
  if tokens.length = 0 then .panic .emptyInput
  else
    match tokens[0]? with
    | none => .panic .unwrapNone
    | some t => (do
      let r ← innerParseCalls p tokens loop calls p.grammar.initialSymbol 0
        (p.getTokenProductions p.grammar.initialSymbol t.tType) true
      pure (toParseResult r) : M Nat (ParseResult L T)) calls

/-! ## Counting calls with a solver -/

/-- A solver that is handed a counter, which it leaves alone, next to its state
(syntax_error_solver.rs:18-51). -/
def _root_.Verif.Solver.counted (sv : Solver σ L T) : Solver (σ × Nat) L T where
  fixFailedProduction tokens pos f := fun s =>
    match sv.fixFailedProduction tokens pos f s.1 with
    | .ok (r, s') => .ok (r, s', s.2)
    | .panic e => .panic e
    | .fuel => .fuel
  fixFailedProductions tokens pos fs := fun s =>
    match sv.fixFailedProductions tokens pos fs s.1 with
    | .ok (r, s') => .ok (r, s', s.2)
    | .panic e => .panic e
    | .fuel => .fuel

/-- The parser (recursive_descent_parser.rs:84-89) with such a solver. -/
def counted (p : Parser σ L T) : Parser (σ × Nat) L T :=
  ⟨p.grammar, p.syntaxErrorSolver.map Solver.counted, p.transitions⟩

/-- `inner_parse_from_tokens`, recursive_descent_parser.rs:186-221, where the counter is the number of calls
of this function that may still be made. Running out of calls (or of `depth` nested calls, or of `loop`
iterations of a `while` loop 331-369) gives `fuel`. -/
def innerParseBudget (p : Parser σ L T) (tokens : List (Token L T)) (loop : Nat) :
    Nat → Rec (σ × Nat) L T
  | 0, _, _, _, _ => M.fuel
  | depth + 1, x, pos, outputs, single => fun s =>
    match s.2 with
    | 0 => .fuel
    | calls + 1 =>
      (do
        let childSingle := isChildSinglePath single outputs
        match ← tryParseProductionsLoop p.counted tokens (innerParseBudget p tokens loop depth) loop x pos
          childSingle outputs [] with
        | .ok r => pure r
        | .error failed => do
          let fix ← tryFixProductions p.counted tokens pos single childSingle failed
          pure (fixOptionToResult failed fix x) : M (σ × Nat) (ParseSymbolResult L T)) (s.1, calls)

/-- `parse_from_tokens`, recursive_descent_parser.rs:120-148, with at most `calls` calls of
`inner_parse_from_tokens` (nested or not) and at most `loop` iterations of each `while` loop 331-369; with
the number of calls that were not needed. -/
def parseFromTokensBudget (p : Parser σ L T) (calls loop : Nat) (tokens : List (Token L T)) (s : σ) :
    Out (ParseResult L T × σ × Nat) :=
  if tokens.length = 0 then .panic .emptyInput
  else
    match tokens[0]? with
    | none => .panic .unwrapNone
    | some t => (do
      let r ← innerParseBudget p tokens loop calls p.grammar.initialSymbol 0
        (p.getTokenProductions p.grammar.initialSymbol t.tType) true
      pure (toParseResult r) : M (σ × Nat) (ParseResult L T)) (s, calls)

end Verif.Parser
