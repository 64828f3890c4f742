import Verif.Spec.Replay

/-!
# Specification: combining two solvers
-/

namespace Verif.Spec

variable {σ τ L T : Type}

/-- Ask the first; if it declines, ask the second. Each has a state of its own. -/
def firstOf {α : Type} (call : M σ (Option α)) (call' : M τ (Option α)) : M (σ × τ) (Option α) := fun (s, t) =>
  match call s with
  | .ok (some a, s1) => .ok (some a, (s1, t))
  | .ok (none, s1) =>
    match call' t with
    | .ok (o, t1) => .ok (o, (s1, t1))
    | .panic e => .panic e
    | .fuel => .fuel
  | .panic e => .panic e
  | .fuel => .fuel

/-- The solver that asks `sv` and, where it declines, `sv'`. -/
def orElse (sv : Solver σ L T) (sv' : Solver τ L T) : Solver (σ × τ) L T where
  fixFailedProduction tokens pos fp :=
    firstOf (sv.fixFailedProduction tokens pos fp) (sv'.fixFailedProduction tokens pos fp)
  fixFailedProductions tokens pos fps :=
    firstOf (sv.fixFailedProductions tokens pos fps) (sv'.fixFailedProductions tokens pos fps)

end Verif.Spec
