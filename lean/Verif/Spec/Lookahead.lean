import Verif.Model.FirstFollow
import Verif.Spec.Derivation

/-!
# Specification: the lookahead of a production for any FIRST and FOLLOW sets
-/

namespace Verif.Spec

variable {T : Type} [DecidableEq T]

/-- `a` selects the production `p` by the sets `ff`: `a` is in FIRST of the first symbol of its output
(and is not `eps`), or FIRST of that symbol contains `eps` and `a` is in FOLLOW of that symbol, or of the
input of `p` if that symbol is `eps` itself. -/
def LooksAhead (eps : T) (ff : FirstFollow T) (p : Production T) (a : T) : Prop :=
  ∃ x r fx, p.output = x :: r ∧ ff.getFirstSymbols x = some fx ∧
    ((a ∈ fx ∧ a ≠ eps) ∨
      (eps ∈ fx ∧ ∃ fo, ff.getFollowSymbols (if x = eps then p.input else x) = some fo ∧ a ∈ fo))

/-- The sets `ff` have everything the table needs: FIRST of the first symbol of every output; if that
contains `eps`, also its FOLLOW; and only terminals of the grammar select productions. -/
def Supplies (eps : T) (ps : List (Production T)) (ff : FirstFollow T) : Prop :=
  ∀ p ∈ ps, (∃ x r fx, p.output = x :: r ∧ ff.getFirstSymbols x = some fx ∧
      (eps ∈ fx → (ff.getFollowSymbols (if x = eps then p.input else x)).isSome)) ∧
    ∀ a, LooksAhead eps ff p a → IsTerminal ps a

end Verif.Spec
