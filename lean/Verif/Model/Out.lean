/-!
# Outcomes of modelled computations

Not a model of a particular Rust item: this file fixes how Rust control effects are represented.

* a Rust function that can only return is a plain Lean function;
* a Rust function that can panic returns `Out α`, a panic being the explicit value `Out.panic`;
* an unbounded Rust loop or recursion takes a fuel argument and answers `Out.fuel` when the fuel
  is used up ("has not returned yet").
-/

namespace Verif

/-- The reasons for which the modelled code can panic; the explicit ones cite their line (context_free_grammar.rs,
recursive_descent_parser.rs). -/
inductive Panic where
  /-- `panic!("Expected epsilon symbol not to generate any symbols!")`, context_free_grammar.rs:109 -/
  | epsilonInput
  /-- `panic!("Expected production to have at least one symbol")`, context_free_grammar.rs:114 -/
  | emptyOutput
  /-- `panic!("Expected epsilon production not to have additional symbol")`,
  context_free_grammar.rs:117 -/
  | epsilonMixed
  /-- `Option::unwrap` on `None`, anywhere -/
  | unwrapNone
  /-- `RefCell::borrow`/`borrow_mut` on a cell whose current borrows forbid it -/
  | alreadyBorrowed
  /-- `usize` subtraction below zero -/
  | underflow
  /-- `panic!("Expecting at least one token!")`, recursive_descent_parser.rs:127 -/
  | emptyInput
  /-- `panic!("Unexpected state!")`, recursive_descent_parser.rs:425 -/
  | unexpectedState
  /-- a panic raised by user code (the syntax error solver) -/
  | user
  deriving DecidableEq, Repr

/-- Outcome of running a modelled Rust function. Represents control effects, models no line. -/
inductive Out (α : Type) where
  | ok (a : α)
  | panic (p : Panic)
  | fuel
  deriving Repr, DecidableEq

namespace Out

/-- Sequencing of outcomes: a panic or a missing result ends the computation. Models `;` and `let`, no particular
line. -/
def bind {α β : Type} (x : Out α) (f : α → Out β) : Out β :=
  match x with
  | .ok a => f a
  | .panic p => .panic p
  | .fuel => .fuel

instance : Monad Out where
  pure := Out.ok
  bind := Out.bind

/-- `Option::unwrap`, as called at first_follow_symbols.rs:86, 205, 282-296, 362, 396-408, 445-448,
recursive_descent_parser_transitions.rs:102, 195, 206, recursive_descent_parser.rs:132, 256, 332, 355, 388, 443. -/
def unwrap {α : Type} : Option α → Out α
  | some a => .ok a
  | none => .panic .unwrapNone

end Out

/-- Computations that may also consult (and thereby change the state of) the syntax error solver,
whose methods take `&self` but may use interior mutability (syntax_error_solver.rs:1-51). `σ` is the state of the
solver. -/
def M (σ α : Type) : Type := σ → Out (α × σ)

namespace M

/-- Return without touching the solver. -/
protected def pure {σ α : Type} (a : α) : M σ α := fun s => .ok (a, s)

/-- Sequencing, threading the solver state. -/
protected def bind {σ α β : Type} (x : M σ α) (f : α → M σ β) : M σ β := fun s =>
  match x s with
  | .ok (a, s') => f a s'
  | .panic p => .panic p
  | .fuel => .fuel

instance {σ : Type} : Monad (M σ) where
  pure := M.pure
  bind := M.bind

/-- A panic, in a computation that may consult the solver; models no particular line. -/
def panic {σ α : Type} (p : Panic) : M σ α := fun _ => .panic p

/-- Out of fuel, in a computation that may consult the solver; models no line. -/
def fuel {σ α : Type} : M σ α := fun _ => .fuel

end M

/-! ## Observables of a computation that needs fuel -/

/-- The computation returns `a` when given enough fuel. An observable, models no line; so the next two. -/
def Returns {α : Type} (f : Nat → Out α) (a : α) : Prop := ∃ N, ∀ n, N ≤ n → f n = .ok a

/-- The computation panics when given enough fuel. -/
def Panics {α : Type} (f : Nat → Out α) : Prop := ∃ N p, ∀ n, N ≤ n → f n = .panic p

/-- The computation never produces an outcome, however long it runs. -/
def Diverges {α : Type} (f : Nat → Out α) : Prop := ∀ n, f n = .fuel

end Verif
