import Verif.Spec.Derivation
import Mathlib.Computability.DFA

/-!
# Specification: the grammar of a finite automaton
-/

namespace Verif.Spec

/-- The symbols of the grammar of an automaton with states `Q` over the letters `α`: `eps`, a start symbol, an end
marker, the states and the letters. -/
inductive RegSym (Q α : Type) where
  | eps
  | start
  | stop
  | state (q : Q)
  | letter (a : α)
  deriving DecidableEq

variable {Q α : Type}

/-- The right-linear grammar of an automaton: `q → a q'` if the letter `a` leads from `q` to `q'`, and `q → eps` if `q`
is accepting. -/
def regular (states : List Q) (letters : List α) (step : Q → α → Q) (accept : Q → Bool) :
    List (Production (RegSym Q α)) :=
  states.flatMap fun q =>
    (letters.map fun a => ⟨.state q, [.letter a, .state (step q a)]⟩) ++
      if accept q then [⟨.state q, [.eps]⟩] else []

end Verif.Spec
