import Verif.Model.Transitions
import Verif.Model.Token

/-!
# `RecursiveDescentParser` (src/parser/*.rs)
-/

namespace Verif

/-! ## Result types -/

/-- `FixGap`, parser/fix_gap.rs:1-4. -/
structure FixGap (L T : Type) where
  skippedTokens : List L
  skippedSymbols : List T
  deriving Repr

mutual
/-- `FixedSymbol`, parser/fixed_symbol.rs:3-6. -/
inductive FixedSymbol (L T : Type) where
  | mk (fixedProduction : FixedProduction L T) (symbolToDerive : T)
/-- `FixedProduction`, parser/fixed_production.rs:3-5. -/
inductive FixedProduction (L T : Type) where
  | mk (fixedParts : List (FixedProductionPart L T))
/-- `FixedProductionPart`, parser/fixed_production_part.rs:6-10. -/
inductive FixedProductionPart (L T : Type) where
  | ok (node : Node L T)
  | fixed (symbol : FixedSymbol L T)
  | gap (gap : FixGap L T)
end

/-- `ProductionParsedSymbol`, parser/production_parsed_symbol.rs:5-8. -/
inductive ProductionParsedSymbol (L T : Type) where
  | ok (node : Node L T)
  | fix (symbol : FixedSymbol L T)

mutual
/-- `FailedSymbol`, parser/failed_symbol.rs:3-6. -/
inductive FailedSymbol (L T : Type) where
  | mk (failedProductions : List (FailedProduction L T)) (symbolToDerive : T)
/-- `FailedProduction`, parser/failed_production.rs:4-8. -/
inductive FailedProduction (L T : Type) where
  | mk (failedSymbol : FailedSymbol L T) (parsedSymbols : List (ProductionParsedSymbol L T))
      (pendingSymbols : List T)
end

/-- Field `symbol_to_derive`, parser/failed_symbol.rs:5. -/
def FailedSymbol.symbolToDerive {L T : Type} : FailedSymbol L T → T
  | .mk _ x => x

/-- Field `failed_productions`, parser/failed_symbol.rs:4. -/
def FailedSymbol.failedProductions {L T : Type} : FailedSymbol L T → List (FailedProduction L T)
  | .mk l _ => l

/-- Field `failed_symbol`, parser/failed_production.rs:5. -/
def FailedProduction.failedSymbol {L T : Type} : FailedProduction L T → FailedSymbol L T
  | .mk f _ _ => f

/-- Field `parsed_symbols`, parser/failed_production.rs:6. -/
def FailedProduction.parsedSymbols {L T : Type} :
    FailedProduction L T → List (ProductionParsedSymbol L T)
  | .mk _ l _ => l

/-- Field `pending_symbols`, parser/failed_production.rs:7. -/
def FailedProduction.pendingSymbols {L T : Type} : FailedProduction L T → List T
  | .mk _ _ l => l

/-- Field `symbol_to_derive`, parser/fixed_symbol.rs:5. -/
def FixedSymbol.symbolToDerive {L T : Type} : FixedSymbol L T → T
  | .mk _ x => x

/-- Field `fixed_production`, parser/fixed_symbol.rs:4. -/
def FixedSymbol.fixedProduction {L T : Type} : FixedSymbol L T → FixedProduction L T
  | .mk p _ => p

/-- Field `fixed_parts`, parser/fixed_production.rs:4. -/
def FixedProduction.fixedParts {L T : Type} : FixedProduction L T → List (FixedProductionPart L T)
  | .mk l => l

/-- `FixResult`, parser/fix_result.rs:3-6. -/
structure FixResult (L T : Type) where
  finalTokenPosition : Nat
  production : FixedProduction L T

/-- `ParseResult`, parser/parse_result.rs:6-10. -/
inductive ParseResult (L T : Type) where
  | ok (tree : Tree L T)
  | err (failed : FailedSymbol L T)
  | fix (fixed : FixedSymbol L T)

/-- Trait `SyntaxErrorSolver`, parser/syntax_error_solver.rs:18-51: two arbitrary computations over a
solver state `σ` (the methods take `&self`, so a change of state is interior mutability). -/
structure Solver (σ L T : Type) where
  fixFailedProduction : List (Token L T) → Nat → FailedProduction L T → M σ (Option (FixResult L T))
  fixFailedProductions :
    List (Token L T) → Nat → List (FailedProduction L T) → M σ (Option (FixResult L T))

/-! ## Internal types of recursive_descent_parser.rs -/

/-- `FixedState`, recursive_descent_parser.rs:32-35. -/
structure FixedState (L T : Type) where
  finalTokenPosition : Nat
  fixedSymbol : FixedSymbol L T

/-- `ParsingState`, recursive_descent_parser.rs:46-51. The iterator over the productions not yet tried
is the list of their outputs. -/
structure ParsingState (L T : Type) where
  initialTokenPosition : Nat
  finalTokenPosition : Nat
  prodIterOption : Option (List (List T))
  node : Node L T

/-- `State`, recursive_descent_parser.rs:71-74. -/
inductive PState (L T : Type) where
  | parsing (s : ParsingState L T)
  | fixed (s : FixedState L T)

/-- `State::is_fixed`, recursive_descent_parser.rs:79-81. -/
def PState.isFixed {L T : Type} : PState L T → Bool
  | .parsing _ => false
  | .fixed _ => true

/-- The `match` of recursive_descent_parser.rs:355-358. -/
def PState.finalTokenPosition {L T : Type} : PState L T → Nat
  | .parsing s => s.finalTokenPosition
  | .fixed s => s.finalTokenPosition

/-- `ParseSymbolResult`, recursive_descent_parser.rs:20-24. -/
inductive ParseSymbolResult (L T : Type) where
  | ok (s : ParsingState L T)
  | err (f : FailedSymbol L T)
  | fix (s : FixedState L T)

/-- `ParseProductionResult`, recursive_descent_parser.rs:26-30. -/
inductive ParseProductionResult (L T : Type) where
  | ok (node : Node L T)
  | err (f : FailedProduction L T)
  | fix (p : FixedProduction L T)

/-- `RecursiveDescentParser`, recursive_descent_parser.rs:84-89 (without the phantom marker). -/
structure Parser (σ L T : Type) where
  grammar : Grammar T
  syntaxErrorSolver : Option (Solver σ L T)
  transitions : Transitions T

namespace Parser

variable {σ L T : Type} [DecidableEq T]

/-! ## Constructors -/

/-- `from`, recursive_descent_parser.rs:150-161. -/
def «from» (h : HashOrder T) (g : Grammar T) (ff : FirstFollow T) (solver : Option (Solver σ L T)) :
    Out (Parser σ L T) := do
  let t ← Transitions.from h g ff
  .ok ⟨g, solver, t⟩

/-- `from_grammar_and_first_follow_symbols`, recursive_descent_parser.rs:104-109. -/
def fromGrammarAndFirstFollowSymbols (h : HashOrder T) (g : Grammar T) (ff : FirstFollow T) :
    Out (Parser σ L T) :=
  Parser.from h g ff none

/-- `from_grammar`, recursive_descent_parser.rs:98-102. -/
def fromGrammar (h : HashOrder T) (fuel : Nat) (g : Grammar T) : Out (Parser σ L T) := do
  let ff ← FirstFollow.from h fuel g
  fromGrammarAndFirstFollowSymbols h g ff

/-- `from_grammar_and_solver`, recursive_descent_parser.rs:111-118. -/
def fromGrammarAndSolver (h : HashOrder T) (fuel : Nat) (g : Grammar T) (solver : Solver σ L T) :
    Out (Parser σ L T) := do
  let ff ← FirstFollow.from h fuel g
  Parser.from h g ff (some solver)

/-! ## Parsing -/

/-- `build_token_failed_symbol`, recursive_descent_parser.rs:163-168. -/
def buildTokenFailedSymbol (x : T) : ParseSymbolResult L T := .err (.mk [] x)

/-- `inner_get_token_productions`, recursive_descent_parser.rs:170-184. -/
def getTokenProductions (p : Parser σ L T) (symbolToDerive firstToken : T) : List (List T) :=
  match p.transitions.getProductions symbolToDerive firstToken with
  | some ps => ps.map (·.output)
  | none => []

/-- `is_child_single_path`, recursive_descent_parser.rs:582-587. -/
def isChildSinglePath (isSinglePath : Bool) (outputs : List (List T)) : Bool :=
  isSinglePath && decide (outputs.length = 1)

/-- `inner_parse_non_epsilon_terminal_symbol`, recursive_descent_parser.rs:480-509. -/
def parseNonEpsilonTerminalSymbol (x : T) (tokens : List (Token L T)) (pos : Nat) :
    ParseSymbolResult L T :=
  match tokens[pos]? with
  | some t =>
    if x = t.tType then .ok ⟨pos, pos + 1, none, .mk [] t.clone⟩
    else buildTokenFailedSymbol x
  | none => buildTokenFailedSymbol x

/-- `inner_parse_terminal_symbol`, recursive_descent_parser.rs:459-478. -/
def parseTerminalSymbol (p : Parser σ L T) (x : T) (tokens : List (Token L T)) (pos : Nat) :
    ParseSymbolResult L T :=
  if p.grammar.epsilonSymbol = x then .ok ⟨pos, pos, none, .mk [] ⟨none, x⟩⟩
  else parseNonEpsilonTerminalSymbol x tokens pos

/-- The type of `inner_parse_from_tokens`, recursive_descent_parser.rs:186-193, with the parser and tokens
fixed: symbol to derive, token position, production outputs still to try, is_single_path. -/
abbrev Rec (σ L T : Type) := T → Nat → List (List T) → Bool → M σ (ParseSymbolResult L T)

/-- `inner_parse_from_tokens_production_non_terminal`, recursive_descent_parser.rs:436-457; `rec` is
`inner_parse_from_tokens`. -/
def parseProductionNonTerminal (p : Parser σ L T) (tokens : List (Token L T)) (rec : Rec σ L T)
    (x : T) (pos : Nat) (single : Bool) : M σ (ParseSymbolResult L T) :=
  match tokens[pos]? with
  | none => M.panic .unwrapNone
  | some t => rec x pos (p.getTokenProductions x t.tType) single

/-- `inner_parse_from_tokens_production_symbol`, recursive_descent_parser.rs:511-528. -/
def parseProductionSymbol (p : Parser σ L T) (tokens : List (Token L T)) (rec : Rec σ L T)
    (x : T) (pos : Nat) (single : Bool) : M σ (ParseSymbolResult L T) :=
  if p.grammar.isNonTerminal x then parseProductionNonTerminal p tokens rec x pos single
  else pure (p.parseTerminalSymbol x tokens pos)

/-- The `while` loop of `inner_parse_pop_states`, recursive_descent_parser.rs:541-579. `states` is the
stack with its top first; `acc` is `reversed_failed_symbols`. The result is the stack afterwards and
the returned option. -/
def popStates (rec : Rec σ L T) (single : Bool) :
    List (PState L T) → List (PState L T) → M σ (List (PState L T) × Option (List (PState L T)))
  | [], acc => pure ([], some acc.reverse)
  | .fixed s :: rest, acc => popStates rec single rest (acc ++ [.fixed s])
  | .parsing s :: rest, acc =>
    match s.prodIterOption with
    | some it => do
      match ← rec s.node.token.tType s.initialTokenPosition it single with
      | .ok s' => pure (.parsing s' :: rest, none)
      | _ => popStates rec single rest acc
    | none => popStates rec single rest (acc ++ [.parsing s])

/-- The conversion of a state by the first closure of
`inner_parse_from_tokens_production_build_failed_symbol`, recursive_descent_parser.rs:381-384. -/
def stateToParsedSymbol : PState L T → ProductionParsedSymbol L T
  | .parsing s => .ok s.node
  | .fixed s => .fix s.fixedSymbol

/-- `inner_parse_from_tokens_production_build_failed_symbol`, recursive_descent_parser.rs:372-395. The
`for` loop 387-389 copies the symbols from index `child_nodes.len() + 1` on. -/
def buildFailedSymbol (f : FailedSymbol L T) (output : List T) (states : List (PState L T)) :
    ParseProductionResult L T :=
  let childNodes := states.map stateToParsedSymbol
  .err (.mk f childNodes (output.drop (childNodes.length + 1)))

/-- The closure of recursive_descent_parser.rs:408-413. -/
def stateToFixedPart : PState L T → FixedProductionPart L T
  | .fixed s => .fixed s.fixedSymbol
  | .parsing s => .ok s.node

/-- The closure of recursive_descent_parser.rs:423-426, over all states. -/
def statesToNodes : List (PState L T) → Out (List (Node L T))
  | [] => .ok []
  | .parsing s :: rest => do
    let ns ← statesToNodes rest
    .ok (s.node :: ns)
  | .fixed _ :: _ => .panic .unexpectedState

/-- `inner_parse_from_tokens_production_build_node`, recursive_descent_parser.rs:397-434; `states` in
production order. -/
def buildNode (symbolToDerive : T) (states : List (PState L T)) :
    Out (ParseProductionResult L T) :=
  if states.any PState.isFixed then
    .ok (.fix (.mk (states.map stateToFixedPart)))
  else do
    let childNodes ← statesToNodes states
    .ok (.ok (.mk childNodes ⟨none, symbolToDerive⟩))

/-- Run an outcome that does not involve the solver; models no particular line of recursive_descent_parser.rs. -/
def lift {α : Type} (x : Out α) : M σ α := fun s =>
  match x with
  | .ok a => .ok (a, s)
  | .panic p => .panic p
  | .fuel => .fuel

/-- The `while` loop of `inner_parse_from_tokens_production`, recursive_descent_parser.rs:331-369.
`states` is the stack with its top first, `pos` is `*current_token_position`; the result contains
the final value of `*current_token_position`. -/
def productionLoop (p : Parser σ L T) (tokens : List (Token L T)) (rec : Rec σ L T)
    (symbolToDerive : T) (output : List T) (single : Bool) :
    Nat → List (PState L T) → Nat → M σ (ParseProductionResult L T × Nat)
  | 0, _, _ => M.fuel
  | n + 1, states, pos =>
    if states.length < output.length then
      match output[states.length]? with
      | none => M.panic .unwrapNone
      | some x => do
        match ← parseProductionSymbol p tokens rec x pos single with
        | .ok s =>
          productionLoop p tokens rec symbolToDerive output single n (.parsing s :: states)
            s.finalTokenPosition
        | .err f =>
          match ← popStates rec single states [] with
          | (_, some parsed) => pure (buildFailedSymbol f output parsed, pos)
          | ([], none) => M.panic .underflow
          | (s :: rest, none) =>
            productionLoop p tokens rec symbolToDerive output single n (s :: rest)
              s.finalTokenPosition
        | .fix s =>
          productionLoop p tokens rec symbolToDerive output single n (.fixed s :: states)
            s.finalTokenPosition
    else do
      let r ← lift (buildNode symbolToDerive states.reverse)
      pure (r, pos)

/-- The `for` loop of `inner_parse_from_tokens_try_parse_productions`,
recursive_descent_parser.rs:286-317: over the outputs left in the iterator, with the
`failed_productions` so far. The `Result` is an `Except`. `fuel` is the fuel of each inner loop. -/
def tryParseProductionsLoop (p : Parser σ L T) (tokens : List (Token L T)) (rec : Rec σ L T)
    (fuel : Nat) (symbolToDerive : T) (pos : Nat) (childSingle : Bool) :
    List (List T) → List (FailedProduction L T) →
      M σ (Except (List (FailedProduction L T)) (ParseSymbolResult L T))
  | [], failed => pure (.error failed)
  | output :: rest, failed => do
    match ← productionLoop p tokens rec symbolToDerive output childSingle fuel [] pos with
    | (.ok node, final) => pure (.ok (.ok ⟨pos, final, some rest, node⟩))
    | (.err f, _) =>
      tryParseProductionsLoop p tokens rec fuel symbolToDerive pos childSingle rest (failed ++ [f])
    | (.fix fp, final) => pure (.ok (.fix ⟨final, .mk fp symbolToDerive⟩))

/-- `inner_parse_from_tokens_try_fix_productions`, recursive_descent_parser.rs:244-273. -/
def tryFixProductions (p : Parser σ L T) (tokens : List (Token L T)) (pos : Nat)
    (single childSingle : Bool) (failed : List (FailedProduction L T)) :
    M σ (Option (FixResult L T)) :=
  match p.syntaxErrorSolver with
  | none => pure none
  | some solver =>
    if single then
      if childSingle then
        match failed[0]? with
        | none => M.panic .unwrapNone
        | some f => solver.fixFailedProduction tokens pos f
      else solver.fixFailedProductions tokens pos failed
    else pure none

/-- `inner_parse_from_tokens_fix_option_to_parse_symbol_result`,
recursive_descent_parser.rs:223-242. -/
def fixOptionToResult (failed : List (FailedProduction L T)) (fix : Option (FixResult L T))
    (x : T) : ParseSymbolResult L T :=
  match fix with
  | some r => .fix ⟨r.finalTokenPosition, .mk r.production x⟩
  | none => .err (.mk failed x)

/-- `inner_parse_from_tokens`, recursive_descent_parser.rs:186-221, the recursive knot. Each level of
recursion uses one unit of fuel, and each inner `while` loop may run for as many iterations as there
is fuel. -/
def innerParse (p : Parser σ L T) (tokens : List (Token L T)) : Nat → Rec σ L T
  | 0, _, _, _, _ => M.fuel
  | n + 1, x, pos, outputs, single => do
    let childSingle := isChildSinglePath single outputs
    match ← tryParseProductionsLoop p tokens (innerParse p tokens n) n x pos childSingle outputs []
      with
    | .ok r => pure r
    | .error failed => do
      let fix ← tryFixProductions p tokens pos single childSingle failed
      pure (fixOptionToResult failed fix x)

/-- `parse_symbol_result_to_parse_result`, recursive_descent_parser.rs:605-615. -/
def toParseResult : ParseSymbolResult L T → ParseResult L T
  | .ok s => .ok ⟨s.node⟩
  | .err f => .err f
  | .fix s => .fix s.fixedSymbol

/-- `parse_from_tokens`, recursive_descent_parser.rs:120-148 (`iterator_to_vec`, 593-599, turns the
token iterator into the list `tokens`). -/
def parseFromTokens (p : Parser σ L T) (fuel : Nat) (tokens : List (Token L T)) :
    M σ (ParseResult L T) :=
  if tokens.length = 0 then M.panic .emptyInput
  else
    match tokens[0]? with
    | none => M.panic .unwrapNone
    | some t => do
      let r ← innerParse p tokens fuel p.grammar.initialSymbol 0
        (p.getTokenProductions p.grammar.initialSymbol t.tType) true
      pure (toParseResult r)

end Parser

end Verif
