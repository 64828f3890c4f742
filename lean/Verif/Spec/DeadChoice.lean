import Verif.Model.Token

/-! # Specification: candidates behind an empty one -/

namespace Verif.Spec

variable {T : Type} [DecidableEq T]

/-- The candidates, but only the empty one for the symbol `X` where that one comes first. -/
def emptyFirst (eps X : T) (cand : T → T → List (List T)) : T → T → List (List T) :=
  fun x a => if x = X ∧ (cand x a).head? = some [eps] then [[eps]] else cand x a

end Verif.Spec
