import Verif.Spec.Derivation

/-!
# Specification: productions a grammar does not use
-/

namespace Verif.Spec

variable {T : Type} [DecidableEq T]

/-- The input of every production of `us` is a symbol that does not occur in `ps` and is not `init`. An
output of `us` may have a non-terminal of `ps` only if the input of its production is in no output of `us`,
and only at its end. -/
def Unused (init : T) (ps us : List (Production T)) : Prop :=
  ∀ u ∈ us, u.input ≠ init ∧ (∀ p ∈ ps, p.input ≠ u.input ∧ u.input ∉ p.output) ∧
    ∀ v y w, u.output = v ++ y :: w → IsNonTerminal ps y → w = [] ∧ ∀ q ∈ us, u.input ∉ q.output

end Verif.Spec
