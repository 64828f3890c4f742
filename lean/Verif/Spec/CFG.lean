import Mathlib.Computability.ContextFreeGrammar
import Verif.Spec.Derivation

/-!
# Specification: the context-free grammar, in Mathlib's sense, denoted by a production list
-/

namespace Verif.Spec

variable {T : Type} [DecidableEq T]

/-- A symbol is a non-terminal if it is the input of a production, a terminal otherwise. -/
def toSymbol (ps : List (Production T)) (x : T) : Symbol T T :=
  if x ∈ ps.map (·.input) then .nonterminal x else .terminal x

/-- The context-free grammar denoted by the arguments of `ContextFreeGrammar::new`. -/
def toCFG (eps init : T) (ps : List (Production T)) : ContextFreeGrammar T where
  NT := T
  initial := init
  rules := (ps.map fun p => ⟨p.input, (rhs eps p).map (toSymbol ps)⟩).toFinset

end Verif.Spec
