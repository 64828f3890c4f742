import Verif.Spec.FixAt
import Verif.Spec.EndMarker
import Verif.Spec.Vanishing

/-!
# Specification: solvers that only insert
-/

namespace Verif.Spec

variable {σ L T : Type} [DecidableEq T]

/-- Every fix says to go on at the position asked: no token is skipped. -/
def OnlyInserts (solver : Option (Solver σ L T)) (tokens : List (Token L T)) : Prop :=
  ∀ pos r, SolverReturned solver tokens pos r → r.finalTokenPosition = pos

/-- The solver that repairs every failure by a gap in which no token and the given symbols are skipped: the one that
failed and those behind it. -/
def insertMissing : Solver σ L T where
  fixFailedProduction _ pos fp := fun s =>
    .ok (some ⟨pos, .mk [.gap ⟨[], fp.failedSymbol.symbolToDerive :: fp.pendingSymbols⟩]⟩, s)
  fixFailedProductions _ pos _ := fun s => .ok (some ⟨pos, .mk [.gap ⟨[], []⟩]⟩, s)

end Verif.Spec
