import Verif.Model.Parser
import Verif.Spec.Derivation

/-!
# Specification: what a failure report says was expected
-/

namespace Verif.Spec

variable {L T : Type} [DecidableEq T]

/-- `y` is an innermost symbol of the report: a failed symbol without failed productions. -/
inductive Innermost : FailedSymbol L T → T → Prop where
  | here (y : T) : Innermost (.mk [] y) y
  | deep (fps : List (FailedProduction L T)) (x : T) (fp : FailedProduction L T) (y : T) : fp ∈ fps →
      Innermost fp.failedSymbol y → Innermost (.mk fps x) y

/-- Every symbol of the report has at most one failed production: the report is a path. -/
inductive IsPath : FailedSymbol L T → Prop where
  | last (y : T) : IsPath (.mk [] y)
  | next (fp : FailedProduction L T) (x : T) : IsPath fp.failedSymbol → IsPath (.mk [fp] x)

/-- The symbol `y` cannot be derived at position `k`: it is a terminal and no token of this type stands
there, or it is a non-terminal and the table has no production for the token that stands there. -/
def Stuck (ps : List (Production T)) (cand : T → T → List (List T)) (tokens : List (Token L T))
    (y : T) (k : Nat) : Prop :=
  (¬ IsNonTerminal ps y ∧ ∀ t, tokens[k]? = some t → t.tType ≠ y) ∨
  (IsNonTerminal ps y ∧ ∃ t, tokens[k]? = some t ∧ cand y t.tType = [])

/-- The grammar allows the symbol `y` behind the first `k` tokens: these are terminals, and the initial
symbol derives a form that begins with their types and `y`. -/
def Allowed (eps init : T) (ps : List (Production T)) (tokens : List (Token L T)) (y : T) (k : Nat) :
    Prop :=
  (∀ t ∈ tokens.take k, IsTerminal ps t.tType ∧ t.tType ≠ eps) ∧
  ∃ v, Derives eps ps [init] ((tokens.take k).map (·.tType) ++ y :: v)

end Verif.Spec
