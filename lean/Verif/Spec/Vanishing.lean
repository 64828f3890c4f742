import Verif.Spec.Derivation

/-!
# Grammars in which repairs may consume nothing

A solver may answer that a non-terminal is repaired without consuming a token (an insertion). Such a
non-terminal behaves as if it derived the empty string.
-/

namespace Verif.Spec

variable {T : Type} [DecidableEq T]

/-- The grammar in which, besides, every non-terminal may vanish. -/
def vanishing (eps : T) (ps : List (Production T)) : List (Production T) :=
  ps ++ ps.map (fun q => ⟨q.input, [eps]⟩)

/-- No non-terminal derives, in one or more steps, a form that contains itself. -/
def NotRecursive (eps : T) (ps : List (Production T)) : Prop :=
  ∀ x u v, ¬ DerivesPlus eps ps [x] (u ++ x :: v)

end Verif.Spec
