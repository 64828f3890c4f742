import Verif.Model.Out

/-!
# `HashMap`, `HashSet` and their iteration order

`std::collections::HashMap` / `HashSet` are represented by lists in insertion order. Everything the
code can observe of them except iteration order is given by `get`, `contains`, `insert`. Every
iteration in the model goes through `HashOrder.ord`, which returns an arbitrary permutation of the
contents. The oracle is indexed by the hash table instance (`Site`) and its contents in insertion
order: an unmodified Rust hash table always iterates in the same order, and the tables of this code
base only grow, so (instance, contents) identifies the state of a table in a run.
-/

namespace Verif

/-- The hash tables the code iterates over: context_free_grammar.rs:10-12, first_follow_symbols.rs:72 and 241,
recursive_descent_parser_transitions.rs:204. -/
inductive Site (T : Type) where
  /-- keys/values/entries of `productions_hash_map` during `ContextFreeGrammar::new` -/
  | productionsMap
  /-- `non_terminal_symbols_set` -/
  | nonTerminals
  /-- `terminal_symbols_set` -/
  | terminals
  /-- the FIRST set of a symbol -/
  | first (x : T)
  /-- the FOLLOW set of a symbol -/
  | follow (x : T)
  /-- `production_first_symbols` of the `i`-th production of a symbol,
  recursive_descent_parser_transitions.rs:204 -/
  | productionFirst (x : T) (i : Nat)

/-- An iteration order for every hash table: any permutation of the contents. It stands for the random state of
`std::collections::HashMap`/`HashSet` (context_free_grammar.rs:1, first_follow_symbols.rs:4,
recursive_descent_parser_transitions.rs:1). -/
structure HashOrder (T : Type) where
  ord : Site T → List T → List T
  perm : ∀ s l, (ord s l).Perm l

/-- Iteration in insertion order, one of the possible orders; used in examples only, models no line. -/
def HashOrder.id (T : Type) : HashOrder T := ⟨fun _ l => l, fun _ _ => List.Perm.refl _⟩

/-- Iteration against insertion order, another one; used in examples only, models no line. -/
def HashOrder.rev (T : Type) : HashOrder T := ⟨fun _ l => l.reverse, fun _ l => l.reverse_perm⟩

/-- `HashSet::insert`: the new set, and whether the element was new. Called at context_free_grammar.rs:94,
first_follow_symbols.rs:151, 186, 229, 291, 429, 453, recursive_descent_parser_transitions.rs:138, 152, 164. -/
def hsInsert {T : Type} [DecidableEq T] (s : List T) (x : T) : List T × Bool :=
  if x ∈ s then (s, false) else (s ++ [x], true)

/-- A `HashMap<K, V>` as an association list, first entry for a key counts. Models the maps at
context_free_grammar.rs:11, first_follow_symbols.rs:12 and 72, recursive_descent_parser_transitions.rs:10. -/
abbrev HMap (K V : Type) := List (K × V)

namespace HMap

variable {K V : Type} [DecidableEq K]

/-- `HashMap::get`, as called at context_free_grammar.rs:43, first_follow_symbols.rs:48, 86, 205, 286-296, 399, 408,
448, recursive_descent_parser_transitions.rs:19, 22. -/
def get : HMap K V → K → Option V
  | [], _ => none
  | (k', v) :: m, k => if k' = k then some v else get m k

/-- `HashMap::insert`, context_free_grammar.rs:136; also writing through `get_mut` when the key is present,
context_free_grammar.rs:132, recursive_descent_parser_transitions.rs:195, 206, and through `RefCell::borrow_mut`,
first_follow_symbols.rs:86, 288, 408. -/
def insert : HMap K V → K → V → HMap K V
  | [], k, v => [(k, v)]
  | (k', v') :: m, k, v => if k' = k then (k, v) :: m else (k', v') :: insert m k v

/-- `HashMap::keys`, in insertion order; context_free_grammar.rs:67. -/
def keys (m : HMap K V) : List K := m.map (·.1)

/-- `HashMap::from_iter`: later pairs overwrite earlier ones. first_follow_symbols.rs:52, 114, 241,
recursive_descent_parser_transitions.rs:174, 177. -/
def fromIter (l : List (K × V)) : HMap K V := l.foldl (fun m e => insert m e.1 e.2) []

end HMap

end Verif
