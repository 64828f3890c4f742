import Verif.Model.Parser

/-! # Specification: the failures of a report, from the innermost to the outermost -/

namespace Verif.Spec

variable {L T : Type}

mutual
/-- The lists of failed productions in a report, each behind those nested in it. Lists without entries
(failed terminals, and non-terminals without a candidate) are left out. -/
def reportChain : FailedSymbol L T → List (List (FailedProduction L T))
  | .mk fps _ => reportChainList fps ++ (if fps.isEmpty then [] else [fps])
/-- The lists of failed productions nested in a failed production. -/
def reportChainProduction : FailedProduction L T → List (List (FailedProduction L T))
  | .mk f _ _ => reportChain f
/-- The lists of failed productions nested in a list of failed productions. -/
def reportChainList : List (FailedProduction L T) → List (List (FailedProduction L T))
  | [] => []
  | fp :: fps => reportChainProduction fp ++ reportChainList fps
end

end Verif.Spec
