import Verif.Model.Parser

/-! # Specification: the size of a failure report -/

namespace Verif.Spec

variable {L T : Type}

mutual
/-- How many failed symbols a report contains, at all depths, itself included. -/
def reportSize : FailedSymbol L T → Nat
  | .mk fps _ => 1 + reportSizeList fps
/-- How many failed symbols a failed production contains. -/
def reportSizeProduction : FailedProduction L T → Nat
  | .mk f _ _ => reportSize f
/-- How many failed symbols a list of failed productions contains. -/
def reportSizeList : List (FailedProduction L T) → Nat
  | [] => 0
  | fp :: fps => reportSizeProduction fp + reportSizeList fps
end

end Verif.Spec
