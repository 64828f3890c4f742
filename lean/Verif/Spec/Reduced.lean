import Verif.Spec.Derivation

/-!
# Specification: reduced grammars
-/

namespace Verif.Spec

variable {T : Type} [DecidableEq T]

/-- The symbol derives a string of terminals. -/
def Productive (eps : T) (ps : List (Production T)) (x : T) : Prop :=
  ∃ w, Derives eps ps [x] w ∧ ∀ a ∈ w, IsTerminal ps a ∧ a ≠ eps

/-- The symbol occurs in a form derived from the initial symbol. -/
def Reachable (eps init : T) (ps : List (Production T)) (x : T) : Prop :=
  ∃ u v, Derives eps ps [init] (u ++ x :: v)

/-- Every non-terminal is reachable and productive: there are no useless symbols. -/
def Reduced (eps init : T) (ps : List (Production T)) : Prop :=
  ∀ x, IsNonTerminal ps x → Reachable eps init ps x ∧ Productive eps ps x

end Verif.Spec
