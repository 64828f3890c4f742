import Verif.Model.Bounded

/-!
# Model: the parser with a call stack that overflows

The same code as in Model.Parser. A call of `inner_parse_from_tokens` that would be nested too deeply aborts,
as a thread of a Rust program does when its stack overflows; the number of iterations of a `while` loop is
bounded separately, and running into that bound gives `fuel`.
-/

namespace Verif.Parser

variable {σ L T : Type} [DecidableEq T]

/-- `inner_parse_from_tokens`, recursive_descent_parser.rs:186-221, with room for `depth` nested calls of
itself on the stack: the next one aborts with `e`. At most `loop` iterations of each `while` loop 331-369. -/
def innerParseAborting (p : Parser σ L T) (tokens : List (Token L T)) (e : Panic) (loop : Nat) :
    Nat → Rec σ L T
  | 0, _, _, _, _ => M.panic e
  | depth + 1, x, pos, outputs, single => do
    let childSingle := isChildSinglePath single outputs
    match ← tryParseProductionsLoop p tokens (innerParseAborting p tokens e loop depth) loop x pos
      childSingle outputs [] with
    | .ok r => pure r
    | .error failed => do
      let fix ← tryFixProductions p tokens pos single childSingle failed
      pure (fixOptionToResult failed fix x)

/-- `parse_from_tokens`, recursive_descent_parser.rs:120-148, with room for `depth` nested calls of
`inner_parse_from_tokens` on the stack: the next one aborts with `e`. At most `loop` iterations of each
`while` loop 331-369. -/
def parseFromTokensAborting (p : Parser σ L T) (e : Panic) (depth loop : Nat) (tokens : List (Token L T)) :
    M σ (ParseResult L T) :=
  if tokens.length = 0 then M.panic .emptyInput
  else
    match tokens[0]? with
    | none => M.panic .unwrapNone
    | some t => do
      let r ← innerParseAborting p tokens e loop depth p.grammar.initialSymbol 0
        (p.getTokenProductions p.grammar.initialSymbol t.tType) true
      pure (toParseResult r)

end Verif.Parser
