import Verif.Model.Hash

/-!
# `ContextFreeGrammar` (src/grammar/context_free_grammar.rs,
src/grammar/context_free_grammar_production.rs)
-/

namespace Verif

/-- `ContextFreeGrammarProduction`, context_free_grammar_production.rs:1-4 (constructor 6-10; the
`Clone` instance 12-16 copies both fields). -/
structure Production (T : Type) where
  input : T
  output : List T
  deriving DecidableEq, Repr

/-- `ContextFreeGrammar`, context_free_grammar.rs:7-13. -/
structure Grammar (T : Type) where
  epsilonSymbol : T
  initialSymbol : T
  nonTerminalSymbolsSet : List T
  productions : HMap T (List (Production T))
  terminalSymbolsSet : List T
  deriving Repr

namespace Grammar

variable {T : Type} [DecidableEq T]

/-- `get_non_terminal_symbols`, context_free_grammar.rs:26-31: the set in iteration order. -/
def getNonTerminalSymbols (h : HashOrder T) (g : Grammar T) : List T :=
  h.ord .nonTerminals g.nonTerminalSymbolsSet

/-- `get_terminal_symbols`, context_free_grammar.rs:33-38. -/
def getTerminalSymbols (h : HashOrder T) (g : Grammar T) : List T :=
  h.ord .terminals g.terminalSymbolsSet

/-- `get_productions`, context_free_grammar.rs:42-44. -/
def getProductions (g : Grammar T) (symbol : T) : Option (List (Production T)) :=
  g.productions.get symbol

/-- `is_non_terminal`, context_free_grammar.rs:46-48. -/
def isNonTerminal (g : Grammar T) (symbol : T) : Bool := decide (symbol ∈ g.nonTerminalSymbolsSet)

/-- `is_terminal`, context_free_grammar.rs:50-52. -/
def isTerminal (g : Grammar T) (symbol : T) : Bool := decide (symbol ∈ g.terminalSymbolsSet)

/-- One step of the loop of `new_process_productions_map`, context_free_grammar.rs:130-140. -/
def processProductionsStep (m : HMap T (List (Production T))) (p : Production T) :
    HMap T (List (Production T)) :=
  match m.get p.input with
  | none => m.insert p.input [p]
  | some l => m.insert p.input (l ++ [p])

/-- `new_process_productions_map`, context_free_grammar.rs:124-143. -/
def newProcessProductionsMap (ps : List (Production T)) : HMap T (List (Production T)) :=
  ps.foldl processProductionsStep []

/-- The checks on one production, context_free_grammar.rs:112-120. -/
def checkProduction (eps : T) (p : Production T) : Out Unit :=
  if p.output.length = 0 then .panic .emptyOutput
  else if p.output.length > 1 ∧ eps ∈ p.output then .panic .epsilonMixed
  else .ok ()

/-- The inner loop `for production in productions`, context_free_grammar.rs:112-120. -/
def checkProductions (eps : T) : List (Production T) → Out Unit
  | [] => .ok ()
  | p :: ps => do
    checkProduction eps p
    checkProductions eps ps

/-- The outer loop of `new_check_productions_map`, context_free_grammar.rs:107-121, over the given
sequence of keys (the entries of the map are visited in hash order; the `unwrap` of a key of the
map is a modelling device and never fails). -/
def checkKeys (eps : T) (m : HMap T (List (Production T))) : List T → Out Unit
  | [] => .ok ()
  | k :: ks => do
    if k = eps then Out.panic .epsilonInput else do
      let l ← Out.unwrap (m.get k)
      checkProductions eps l
      checkKeys eps m ks

/-- `new_check_productions_map`, context_free_grammar.rs:103-122. -/
def newCheckProductionsMap (h : HashOrder T) (eps : T) (m : HMap T (List (Production T))) :
    Out Unit :=
  checkKeys eps m (h.ord .productionsMap m.keys)

/-- The body of the innermost closure of `build_terminal_symbols_set`,
context_free_grammar.rs:92-96. -/
def terminalStep (nts : List T) (s : List T) (x : T) : List T :=
  if x ∈ nts then s else (hsInsert s x).1

/-- `build_terminal_symbols_set`, context_free_grammar.rs:84-101: over the values of the map in hash
order, over their productions, over the output symbols. -/
def buildTerminalSymbolsSet (h : HashOrder T) (nts : List T) (m : HMap T (List (Production T))) :
    List T :=
  (h.ord .productionsMap m.keys).foldl
    (fun s k => ((m.get k).getD []).foldl (fun s p => p.output.foldl (terminalStep nts) s) s) []

/-- `HashSet::from_iter`, used at context_free_grammar.rs:68-69. -/
def hashSetFromIter (l : List T) : List T := l.foldl (fun s x => (hsInsert s x).1) []

/-- `ContextFreeGrammar::new`, context_free_grammar.rs:56-82. -/
def new (h : HashOrder T) (eps init : T) (ps : List (Production T)) : Out (Grammar T) := do
  let m := newProcessProductionsMap ps
  newCheckProductionsMap h eps m
  let nts := hashSetFromIter (h.ord .productionsMap m.keys)
  let ts := buildTerminalSymbolsSet h nts m
  .ok { epsilonSymbol := eps, initialSymbol := init, nonTerminalSymbolsSet := nts,
        productions := m, terminalSymbolsSet := ts }

end Grammar

end Verif
