import Verif.Spec.Results

/-!
# Specification: recording the calls of a solver and playing the answers back
-/

namespace Verif.Spec

variable {σ L T : Type}

/-- A call of the solver with its answer: the position, the failed productions (one if it is a call of
`fix_failed_production`) and what was returned. -/
structure RecordedCall (L T : Type) where
  pos : Nat
  failed : List (FailedProduction L T)
  answer : Option (FixResult L T)

/-- The solver `sv` with a record of its calls and answers, in order. -/
def recordCalls (sv : Solver σ L T) : Solver (σ × List (RecordedCall L T)) L T where
  fixFailedProduction tokens pos fp := fun (s, log) =>
    match sv.fixFailedProduction tokens pos fp s with
    | .ok (o, s') => .ok (o, (s', log ++ [⟨pos, [fp], o⟩]))
    | .panic e => .panic e
    | .fuel => .fuel
  fixFailedProductions tokens pos fps := fun (s, log) =>
    match sv.fixFailedProductions tokens pos fps s with
    | .ok (o, s') => .ok (o, (s', log ++ [⟨pos, fps, o⟩]))
    | .panic e => .panic e
    | .fuel => .fuel

/-- The next of a list of prepared answers; a panic if there is none. -/
def nextAnswer : List (Option (FixResult L T)) →
    Out (Option (FixResult L T) × List (Option (FixResult L T)))
  | [] => .panic .unwrapNone
  | o :: os => .ok (o, os)

/-- A solver that gives the answers of a list, one after the other, whatever it is asked. -/
def replay : Solver (List (Option (FixResult L T))) L T where
  fixFailedProduction _ _ _ := nextAnswer
  fixFailedProductions _ _ _ := nextAnswer

end Verif.Spec
