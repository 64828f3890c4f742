import Verif.Model.FirstFollow

/-!
# `RecursiveDescentParserTransitions` (src/parser/recursive_descent_parser_transitions.rs)
-/

namespace Verif

/-- `RecursiveDescentParserTransitions<T>`, recursive_descent_parser_transitions.rs:9-11. -/
structure Transitions (T : Type) where
  table : HMap T (HMap T (List (Production T)))
  deriving Repr

namespace Transitions

variable {T : Type} [DecidableEq T]

/-- `get_productions`, recursive_descent_parser_transitions.rs:14-25. -/
def getProductions (t : Transitions T) (symbolToDerive firstSymbol : T) :
    Option (List (Production T)) :=
  match t.table.get symbolToDerive with
  | some m => m.get firstSymbol
  | none => none

/-- `inner_from_get_production_first_symbols_on_epsilon_first`,
recursive_descent_parser_transitions.rs:125-156. -/
def onEpsilonFirst (h : HashOrder T) (g : Grammar T) (p : Production T) (ff : FirstFollow T)
    (x : T) (fx : List T) : Out (List T) := do
  let s := (FirstFollow.insertMany []
    ((h.ord (.first x) fx).filter (fun y => g.epsilonSymbol ≠ y))).1
  if g.epsilonSymbol = x then
    let fo ← Out.unwrap (ff.getFollowSymbols p.input)
    .ok (FirstFollow.insertMany s (h.ord (.follow p.input) fo)).1
  else
    let fo ← Out.unwrap (ff.getFollowSymbols x)
    .ok (FirstFollow.insertMany s (h.ord (.follow x) fo)).1

/-- `inner_from_get_production_first_symbols_on_non_epsilon_first`,
recursive_descent_parser_transitions.rs:158-168. -/
def onNonEpsilonFirst (h : HashOrder T) (x : T) (fx : List T) : List T :=
  (FirstFollow.insertMany [] (h.ord (.first x) fx)).1

/-- `inner_from_get_production_first_symbols`, recursive_descent_parser_transitions.rs:95-123. -/
def productionFirstSymbols (h : HashOrder T) (g : Grammar T) (p : Production T)
    (ff : FirstFollow T) : Out (List T) := do
  let x ← Out.unwrap p.output[0]?
  let fx ← Out.unwrap (ff.getFirstSymbols x)
  if g.epsilonSymbol ∈ fx then onEpsilonFirst h g p ff x fx
  else .ok (onNonEpsilonFirst h x fx)

/-- `inner_from_initial_table`, recursive_descent_parser_transitions.rs:170-184. -/
def initialTable (nts ts : List T) : HMap T (HMap T (List (Production T))) :=
  HMap.fromIter (nts.map (fun x => (x, HMap.fromIter (ts.map (fun a => (a, []))))))

/-- The loop `for production_first_symbol in &production_first_symbols`,
recursive_descent_parser_transitions.rs:204-209, on the row of the symbol. -/
def pushProduction (p : Production T) :
    List T → HMap T (List (Production T)) → Out (HMap T (List (Production T)))
  | [], row => .ok row
  | a :: as, row => do
    let cell ← Out.unwrap (row.get a)
    pushProduction p as (row.insert a (cell ++ [p]))

/-- The loop `for symbol_production in symbol_productions`,
recursive_descent_parser_transitions.rs:197-210; `i` counts the iterations (it only names the hash
set iterated at 204). -/
def processSymbolProductions (h : HashOrder T) (g : Grammar T) (ff : FirstFollow T) (x : T) :
    Nat → List (Production T) → HMap T (List (Production T)) → Out (HMap T (List (Production T)))
  | _, [], row => .ok row
  | i, p :: ps, row => do
    let fs ← productionFirstSymbols h g p ff
    let row' ← pushProduction p (h.ord (.productionFirst x i) fs) row
    processSymbolProductions h g ff x (i + 1) ps row'

/-- `inner_from_process_productions`, recursive_descent_parser_transitions.rs:186-212. -/
def processProductions (h : HashOrder T) (g : Grammar T) (ff : FirstFollow T) :
    List T → HMap T (HMap T (List (Production T))) → Out (HMap T (HMap T (List (Production T))))
  | [], table => .ok table
  | x :: xs, table => do
    let ps ← Out.unwrap (g.getProductions x)
    let row ← Out.unwrap (table.get x)
    let row' ← processSymbolProductions h g ff x 0 ps row
    processProductions h g ff xs (table.insert x row')

/-- `RecursiveDescentParserTransitions::from` / `inner_from`,
recursive_descent_parser_transitions.rs:29-52. -/
def «from» (h : HashOrder T) (g : Grammar T) (ff : FirstFollow T) : Out (Transitions T) := do
  let nts := g.getNonTerminalSymbols h
  let ts := g.getTerminalSymbols h
  let table ← processProductions h g ff nts (initialTable nts ts)
  .ok ⟨table⟩

end Transitions

end Verif
