import Verif.Model.Grammar

/-!
# `FirstFollowSymbols` (src/grammar/first_follow_symbols.rs)

`HashMap<T, RefCell<HashSet<T>>>` is modelled by `HMap T (List T)`. A `RefMut` held by the caller is
a pair (`held`, current contents): reading the cell `held` through the map panics.
-/

namespace Verif

/-- `SymbolsMap<T>`, first_follow_symbols.rs:12. -/
abbrev SymbolsMap (T : Type) := HMap T (List T)

/-- `FirstFollowSymbols<T>`, first_follow_symbols.rs:14-17; the constructor is `new` (29-34). -/
structure FirstFollow (T : Type) where
  firstSymbols : SymbolsMap T
  followSymbols : SymbolsMap T
  deriving Repr

namespace FirstFollow

variable {T : Type} [DecidableEq T]

/-- `get_first_symbols`, first_follow_symbols.rs:36-38 with 44-49. -/
def getFirstSymbols (ff : FirstFollow T) (x : T) : Option (List T) := ff.firstSymbols.get x

/-- `get_follow_symbols`, first_follow_symbols.rs:40-42 with 44-49. -/
def getFollowSymbols (ff : FirstFollow T) (x : T) : Option (List T) := ff.followSymbols.get x

/-- `converge`, first_follow_symbols.rs:20-25: `while callback(model) {}`. The callback mutates the
cells of the model; here it returns the new model and the "updated" flag. -/
def converge {S : Type} (callback : S → Out (S × Bool)) : Nat → S → Out S
  | 0, _ => .fuel
  | n + 1, s => do
    let r ← callback s
    if r.2 then converge callback n r.1 else .ok r.1

/-- `map.get(x).unwrap().borrow()` while the cell of `held` is mutably borrowed, first_follow_symbols.rs:205 (under
86); also `borrow_mut()` while the cell of `held` is borrowed, first_follow_symbols.rs:288 (under 286). -/
def borrowWhile (m : SymbolsMap T) (held x : T) : Out (List T) :=
  match m.get x with
  | none => .panic .unwrapNone
  | some s => if x = held then .panic .alreadyBorrowed else .ok s

/-- `insert_many`, first_follow_symbols.rs:422-433. -/
def insertMany (set : List T) : List T → List T × Bool
  | [] => (set, false)
  | x :: xs =>
    let (set', u) := hsInsert set x
    let (set'', u') := insertMany set' xs
    (set'', u || u')

/-! ## FIRST -/

/-- `inner_get_first_symbols_process_production_non_terminal_symbol`,
first_follow_symbols.rs:195-222. Result: the new contents of the mutably borrowed set, the "updated"
flag, and whether the output iterator is kept (`true`) or set to `None` (`false`). -/
def processNonTerminalSymbol (h : HashOrder T) (g : Grammar T) (m : SymbolsMap T) (held : T)
    (cur : List T) (x : T) : Out (List T × Bool × Bool) := do
  let s ← borrowWhile m held x
  if g.epsilonSymbol ∈ s then
    let (cur', u) := insertMany cur ((h.ord (.first x) s).filter (fun y => g.epsilonSymbol ≠ y))
    .ok (cur', u, true)
  else
    let (cur', u) := insertMany cur (h.ord (.first x) s)
    .ok (cur', u, false)

/-- `inner_get_first_symbols_process_production_symbol`, first_follow_symbols.rs:160-193. -/
def processSymbol (h : HashOrder T) (g : Grammar T) (m : SymbolsMap T) (held : T) (input : T)
    (cur : List T) (x : T) : Out (List T × Bool × Bool) :=
  if x = input then
    if g.epsilonSymbol ∉ cur then .ok (cur, false, false) else .ok (cur, false, true)
  else if g.isNonTerminal x then
    processNonTerminalSymbol h g m held cur x
  else
    let (cur', u) := hsInsert cur x
    .ok (cur', u, false)

/-- The `while` loop of `inner_get_first_symbols_process_production`,
first_follow_symbols.rs:134-155, over the symbols not yet read from the iterator. -/
def processSymbols (h : HashOrder T) (g : Grammar T) (m : SymbolsMap T) (held : T) (input : T) :
    List T → List T → Out (List T × Bool)
  | cur, [] => .ok (hsInsert cur g.epsilonSymbol)
  | cur, x :: xs => do
    let (cur', u, continues) ← processSymbol h g m held input cur x
    if continues then
      let (cur'', u') ← processSymbols h g m held input cur' xs
      .ok (cur'', u || u')
    else .ok (cur', u)

/-- `inner_get_first_symbols_process_production`, first_follow_symbols.rs:125-158. -/
def processProduction (h : HashOrder T) (g : Grammar T) (m : SymbolsMap T) (held : T)
    (cur : List T) (p : Production T) : Out (List T × Bool) :=
  processSymbols h g m held p.input cur p.output

/-- The loop `for production in tuple_productions`, first_follow_symbols.rs:88-95. -/
def processProductions (h : HashOrder T) (g : Grammar T) (m : SymbolsMap T) (held : T) :
    List T → List (Production T) → Out (List T × Bool)
  | cur, [] => .ok (cur, false)
  | cur, p :: ps => do
    let (cur', u) ← processProduction h g m held cur p
    let (cur'', u') ← processProductions h g m held cur' ps
    .ok (cur'', u || u')

/-- The loop `for (symbol, tuple_productions) in productions`, first_follow_symbols.rs:80-96, over
the remaining non-terminals. The `RefMut` of the symbol's cell is dropped, i.e. written back, at the
end of each iteration. -/
def firstRoundLoop (h : HashOrder T) (g : Grammar T) :
    List T → SymbolsMap T → Out (SymbolsMap T × Bool)
  | [], m => .ok (m, false)
  | x :: xs, m => do
    let ps ← Out.unwrap (g.getProductions x)
    let cur ← Out.unwrap (m.get x)
    let (cur', u) ← processProductions h g m x cur ps
    let (m', u') ← firstRoundLoop h g xs (m.insert x cur')
    .ok (m', u || u')

/-- `inner_get_first_symbols_initial_map`, first_follow_symbols.rs:105-115 with the two iterators
117-123 and 224-233. -/
def firstInitialMap (nts ts : List T) : SymbolsMap T :=
  HMap.fromIter (nts.map (fun x => (x, [])) ++ ts.map (fun x => (x, [x])))

/-- `inner_get_first_symbols`, first_follow_symbols.rs:68-103. `ref_map_to_symbols_map` (51-58, moves
every set out of its cell) is the identity on this representation. -/
def innerGetFirstSymbols (h : HashOrder T) (fuel : Nat) (g : Grammar T) : Out (SymbolsMap T) :=
  let nts := g.getNonTerminalSymbols h
  let ts := g.getTerminalSymbols h
  converge (firstRoundLoop h g nts) fuel (firstInitialMap nts ts)

/-! ## FOLLOW -/

/-- `output_symbol` gets the FOLLOW symbols of the production's input, first_follow_symbols.rs:284-293:
the guard, the shared borrow of the input's cell, the mutable borrow of the symbol's cell and the
insertions. -/
def followFromInput (h : HashOrder T) (g : Grammar T) (p : Production T) (x : T)
    (m : SymbolsMap T) : Out (SymbolsMap T × Bool) :=
  if x ≠ p.input ∧ g.isNonTerminal x then do
    let inputFollow ← Out.unwrap (m.get p.input)
    let symFollow ← borrowWhile m p.input x
    let (symFollow', u) := insertMany symFollow (h.ord (.follow p.input) inputFollow)
    .ok (m.insert x symFollow', u)
  else .ok (m, false)

/-- The `loop` of `get_follow_symbols_process_production_last_epsilon_chain`,
first_follow_symbols.rs:281-306, at index `i`. -/
def lastEpsilonChainLoop (h : HashOrder T) (g : Grammar T) (fm : SymbolsMap T) (p : Production T) :
    Nat → SymbolsMap T → Out (SymbolsMap T × Bool)
  | 0, m => do
    let x ← Out.unwrap p.output[0]?
    let r ← followFromInput h g p x m
    let _ ← Out.unwrap (fm.get x)
    .ok r
  | i + 1, m => do
    let x ← Out.unwrap p.output[i + 1]?
    let (m', u) ← followFromInput h g p x m
    let fx ← Out.unwrap (fm.get x)
    if g.epsilonSymbol ∈ fx then
      let (m'', u') ← lastEpsilonChainLoop h g fm p i m'
      .ok (m'', u || u')
    else .ok (m', u)

/-- `production.output.len() - 1` on `usize`, first_follow_symbols.rs:279 and 325. -/
def lastIndex (p : Production T) : Out Nat :=
  if p.output.length = 0 then .panic .underflow else .ok (p.output.length - 1)

/-- `get_follow_symbols_process_production_last_epsilon_chain`, first_follow_symbols.rs:271-309. -/
def lastEpsilonChain (h : HashOrder T) (g : Grammar T) (fm : SymbolsMap T) (p : Production T)
    (m : SymbolsMap T) : Out (SymbolsMap T × Bool) := do
  let i ← lastIndex p
  lastEpsilonChainLoop h g fm p i m

/-- `update_follow_symbols_lambda_chain`, first_follow_symbols.rs:435-458. -/
def updateLambdaChain (h : HashOrder T) (g : Grammar T) (fm : SymbolsMap T) (p : Production T) :
    List Nat → List T → Out (List T × Bool)
  | [], cur => .ok (cur, false)
  | i :: is, cur => do
    let x ← Out.unwrap p.output[i]?
    let fx ← Out.unwrap (fm.get x)
    let (cur', u) := insertMany cur ((h.ord (.first x) fx).filter (fun y => g.epsilonSymbol ≠ y))
    let (cur'', u') ← updateLambdaChain h g fm p is cur'
    .ok (cur'', u || u')

/-- `get_follow_symbols_process_production_non_terminal_symbol`, first_follow_symbols.rs:384-420.
Result: the map, the new `first_indexes`, the flag. -/
def followNonTerminalSymbol (h : HashOrder T) (g : Grammar T) (fm : SymbolsMap T) (p : Production T)
    (i : Nat) (firstIndexes : List Nat) (x : T) (m : SymbolsMap T) :
    Out (SymbolsMap T × List Nat × Bool) := do
  let next ← Out.unwrap p.output[i + 1]?
  if x ≠ next then
    let fnext ← Out.unwrap (fm.get next)
    let cleared := if g.epsilonSymbol ∉ fnext then [] else firstIndexes
    let pushed := cleared ++ [i + 1]
    let cur ← Out.unwrap (m.get x)
    let (cur', u) ← updateLambdaChain h g fm p pushed cur
    .ok (m.insert x cur', pushed, u)
  else .ok (m, firstIndexes, false)

/-- `get_follow_symbols_process_production_symbol`, first_follow_symbols.rs:352-382. -/
def followSymbol (h : HashOrder T) (g : Grammar T) (fm : SymbolsMap T) (p : Production T)
    (i : Nat) (firstIndexes : List Nat) (m : SymbolsMap T) :
    Out (SymbolsMap T × List Nat × Bool) := do
  let x ← Out.unwrap p.output[i]?
  if g.isNonTerminal x then followNonTerminalSymbol h g fm p i firstIndexes x m
  else .ok (m, [], false)

/-- The `loop` of `get_follow_symbols_process_production`, first_follow_symbols.rs:331-346, at
index `i`. -/
def followLoop (h : HashOrder T) (g : Grammar T) (fm : SymbolsMap T) (p : Production T) :
    Nat → List Nat → SymbolsMap T → Out (SymbolsMap T × Bool)
  | 0, fi, m => do
    let (m', _, u) ← followSymbol h g fm p 0 fi m
    .ok (m', u)
  | i + 1, fi, m => do
    let (m', fi', u) ← followSymbol h g fm p (i + 1) fi m
    let (m'', u') ← followLoop h g fm p i fi' m'
    .ok (m'', u || u')

/-- `get_follow_symbols_process_production`, first_follow_symbols.rs:311-350. -/
def followProduction (h : HashOrder T) (g : Grammar T) (fm : SymbolsMap T) (p : Production T)
    (m : SymbolsMap T) : Out (SymbolsMap T × Bool) := do
  let (m', u) ← lastEpsilonChain h g fm p m
  let last ← lastIndex p
  if last > 0 then
    let (m'', u') ← followLoop h g fm p (last - 1) [] m'
    .ok (m'', u || u')
  else .ok (m', u)

/-- The loop `for production in tuple_productions`, first_follow_symbols.rs:255-262. -/
def followProductions (h : HashOrder T) (g : Grammar T) (fm : SymbolsMap T) :
    List (Production T) → SymbolsMap T → Out (SymbolsMap T × Bool)
  | [], m => .ok (m, false)
  | p :: ps, m => do
    let (m', u) ← followProduction h g fm p m
    let (m'', u') ← followProductions h g fm ps m'
    .ok (m'', u || u')

/-- The loop `for (_, tuple_productions) in productions`, first_follow_symbols.rs:250-263. -/
def followRoundLoop (h : HashOrder T) (g : Grammar T) (fm : SymbolsMap T) :
    List T → SymbolsMap T → Out (SymbolsMap T × Bool)
  | [], m => .ok (m, false)
  | x :: xs, m => do
    let ps ← Out.unwrap (g.getProductions x)
    let (m', u) ← followProductions h g fm ps m
    let (m'', u') ← followRoundLoop h g fm xs m'
    .ok (m'', u || u')

/-- `inner_get_follow_symbols`, first_follow_symbols.rs:235-269. -/
def innerGetFollowSymbols (h : HashOrder T) (fuel : Nat) (g : Grammar T) (fm : SymbolsMap T) :
    Out (SymbolsMap T) :=
  let nts := g.getNonTerminalSymbols h
  converge (followRoundLoop h g fm nts) fuel (HMap.fromIter (nts.map (fun x => (x, []))))

/-- `FirstFollowSymbols::from`, first_follow_symbols.rs:61-66. -/
def «from» (h : HashOrder T) (fuel : Nat) (g : Grammar T) : Out (FirstFollow T) := do
  let fm ← innerGetFirstSymbols h fuel g
  let fo ← innerGetFollowSymbols h fuel g fm
  .ok ⟨fm, fo⟩

end FirstFollow

end Verif
