import Verif.Model.Grammar

/-!
# Specification: context-free derivations

Everything here is stated on the raw arguments of `ContextFreeGrammar::new`: the epsilon symbol
`eps` and the list of productions `ps`. Nothing refers to the model of the code except the plain
record `Production` (input, output). A production whose output is the single symbol `eps` denotes
the empty right-hand side.
-/

namespace Verif.Spec

variable {T : Type} [DecidableEq T]

/-- The production list is acceptable: `eps` generates nothing, no output is empty, `eps` occurs in
an output only alone. -/
def WellFormed (eps : T) (ps : List (Production T)) : Prop :=
  ∀ p ∈ ps, p.input ≠ eps ∧ p.output ≠ [] ∧ (eps ∈ p.output → p.output.length = 1)

/-- `x` is the input of some production. -/
def IsNonTerminal (ps : List (Production T)) (x : T) : Prop := ∃ p ∈ ps, p.input = x

/-- `x` occurs in some output and is the input of no production. -/
def IsTerminal (ps : List (Production T)) (x : T) : Prop :=
  (∃ p ∈ ps, x ∈ p.output) ∧ ¬ IsNonTerminal ps x

/-- The right-hand side denoted by a production. -/
def rhs (eps : T) (p : Production T) : List T := if p.output = [eps] then [] else p.output

/-- One derivation step: rewrite one occurrence of a production's input by its right-hand side. -/
inductive Step (eps : T) (ps : List (Production T)) : List T → List T → Prop where
  | mk (u v : List T) (p : Production T) (hp : p ∈ ps) :
      Step eps ps (u ++ p.input :: v) (u ++ rhs eps p ++ v)

/-- Zero or more derivation steps. -/
inductive Derives (eps : T) (ps : List (Production T)) : List T → List T → Prop where
  | refl (a : List T) : Derives eps ps a a
  | step {a b c : List T} : Step eps ps a b → Derives eps ps b c → Derives eps ps a c

/-- One or more derivation steps. -/
def DerivesPlus (eps : T) (ps : List (Production T)) (a c : List T) : Prop :=
  ∃ b, Step eps ps a b ∧ Derives eps ps b c

/-- `x` derives the empty string. -/
def Nullable (eps : T) (ps : List (Production T)) (x : T) : Prop := Derives eps ps [x] []

/-- FIRST: the terminal `a` (other than `eps`) can begin a form derived from `x`. -/
def CanStart (eps : T) (ps : List (Production T)) (x a : T) : Prop :=
  IsTerminal ps a ∧ a ≠ eps ∧ ∃ v, Derives eps ps [x] (a :: v)

/-- FOLLOW: the terminal `a` (other than `eps`) can stand right after `x` in a form derived from
some non-terminal. -/
def CanFollow (eps : T) (ps : List (Production T)) (x a : T) : Prop :=
  IsTerminal ps a ∧ a ≠ eps ∧
    ∃ n u v, IsNonTerminal ps n ∧ Derives eps ps [n] (u ++ x :: a :: v)

/-- FOLLOW as in the textbook: in a form derived from the symbol `init`. -/
def CanFollowFrom (eps : T) (ps : List (Production T)) (init x a : T) : Prop :=
  IsTerminal ps a ∧ a ≠ eps ∧ ∃ u v, Derives eps ps [init] (u ++ x :: a :: v)

/-- No right-hand side contains the same non-terminal twice in a row. -/
def NoAdjacentRepeat (ps : List (Production T)) : Prop :=
  ∀ p ∈ ps, ∀ u x v, p.output = u ++ x :: x :: v → ¬ IsNonTerminal ps x

/-- No non-terminal derives, in one or more steps, a form that begins with itself. -/
def NotLeftRecursive (eps : T) (ps : List (Production T)) : Prop :=
  ∀ x v, ¬ DerivesPlus eps ps [x] (x :: v)

end Verif.Spec
