import Verif.Spec.Expected
import Verif.Spec.ParseTree

/-!
# Specification: what a report says about the place of an error
-/

namespace Verif.Spec

variable {L T : Type} [DecidableEq T]

/-- The tokens in the parsed symbols of a failed production. -/
def reportedTokens (eps : T) : List (ProductionParsedSymbol L T) → List (Token L T)
  | [] => []
  | .ok n :: l => leaves eps n ++ reportedTokens eps l
  | .fix _ :: l => reportedTokens eps l

/-- `y` is an innermost symbol of the report, and on the way down to it the report mentions the tokens `ts` as
parsed. -/
inductive InnermostAfter (eps : T) : FailedSymbol L T → T → List (Token L T) → Prop where
  | here (y : T) : InnermostAfter eps (.mk [] y) y []
  | deep (fps : List (FailedProduction L T)) (x : T) (fp : FailedProduction L T) (y : T) (ts : List (Token L T)) :
      fp ∈ fps → InnermostAfter eps fp.failedSymbol y ts →
      InnermostAfter eps (.mk fps x) y (reportedTokens eps fp.parsedSymbols ++ ts)

/-- Non-terminals are at most the last symbols of productions. -/
def OnlyLastNonTerminal (ps : List (Production T)) : Prop :=
  ∀ q ∈ ps, ∀ y ∈ q.output.dropLast, ¬ IsNonTerminal ps y

end Verif.Spec
