import Verif.Spec.Results

/-!
# Specification: the log of the calls of a solver
-/

namespace Verif.Spec

variable {σ L T : Type}

/-- A call of the solver: the position, the failed productions (one if it is a call of
`fix_failed_production`) and whether a fix was returned. -/
structure LoggedCall (L T : Type) where
  pos : Nat
  failed : List (FailedProduction L T)
  fixed : Bool

/-- The solver `sv` with a log of its calls, in order. -/
def logCalls (sv : Solver σ L T) : Solver (σ × List (LoggedCall L T)) L T where
  fixFailedProduction tokens pos fp := fun (s, log) =>
    match sv.fixFailedProduction tokens pos fp s with
    | .ok (o, s') => .ok (o, (s', log ++ [⟨pos, [fp], o.isSome⟩]))
    | .panic e => .panic e
    | .fuel => .fuel
  fixFailedProductions tokens pos fps := fun (s, log) =>
    match sv.fixFailedProductions tokens pos fps s with
    | .ok (o, s') => .ok (o, (s', log ++ [⟨pos, fps, o.isSome⟩]))
    | .panic e => .panic e
    | .fuel => .fuel

/-- The error report of a failed symbol contains a fix: a fixed symbol is among the parsed symbols of one
of the reported productions, at any depth. -/
def HasFix (f : FailedSymbol L T) : Prop :=
  ∃ fp fs, OccursIn fp f ∧ ProductionParsedSymbol.fix fs ∈ fp.parsedSymbols

end Verif.Spec
