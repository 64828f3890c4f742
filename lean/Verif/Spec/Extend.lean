import Verif.Spec.Derivation

/-!
# Specification: extending a grammar
-/

namespace Verif.Spec

variable {T : Type} [DecidableEq T]

/-- `ps'` is `ps` with productions inserted anywhere, none of which has a terminal of `ps` as input. -/
def Extends (ps ps' : List (Production T)) : Prop :=
  ps.Sublist ps' ∧ ∀ x, IsTerminal ps x → ¬ IsNonTerminal ps' x

end Verif.Spec
