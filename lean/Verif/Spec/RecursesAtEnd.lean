import Verif.Spec.EndMarker
import Verif.Spec.Observe
import Mathlib.Computability.Language

/-!
# Specification: grammars that recurse at the end only
-/

namespace Verif.Spec

variable {σ L T : Type} [DecidableEq T]

/-- No symbol derives a form in which it stands in front of another symbol: after a symbol has come back to itself,
nothing is left to do behind it. -/
def RecursesAtEnd (eps : T) (ps : List (Production T)) : Prop :=
  ∀ x u b v, ¬ DerivesPlus eps ps [x] (u ++ x :: b :: v)

/-- The check of it: symbols have ranks such that the symbols of an output are of smaller rank than the input, and only
the last symbol may be of the same rank. -/
def RankedAtEnd (ps : List (Production T)) (rank : T → Nat) : Prop :=
  ∀ q ∈ ps, ∀ u y v, q.output = u ++ y :: v → IsNonTerminal ps y →
    rank y < rank q.input ∨ v = [] ∧ rank y ≤ rank q.input

/-- The sentences of a grammar, as a language over its symbols. -/
def sentences (eps init : T) (ps : List (Production T)) : Language T := {w | Sentence eps init ps w}

/-- The words for which the parser returns `Ok`, without lexemes (which do not matter, C32) and with the solver in
state `s`. -/
def accepted (p : Parser σ L T) (s : σ) : Language T :=
  {w | ∃ tree s', Parses p (w.map (Token.mk none)) s (.ok tree) s'}

end Verif.Spec
