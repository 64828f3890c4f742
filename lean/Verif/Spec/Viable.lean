import Verif.Spec.EndMarker

/-!
# Specification: viable prefixes
-/

namespace Verif.Spec

variable {T : Type} [DecidableEq T]

/-- The terminals `u` begin a form derived from the initial symbol. -/
def ViablePrefix (eps init : T) (ps : List (Production T)) (u : List T) : Prop :=
  (∀ a ∈ u, IsTerminal ps a ∧ a ≠ eps) ∧ ∃ v, Derives eps ps [init] (u ++ v)

/-- The terminals `u` begin a sentence. -/
def BeginsSentence (eps init : T) (ps : List (Production T)) (u : List T) : Prop :=
  ∃ z, Sentence eps init ps (u ++ z)

end Verif.Spec
