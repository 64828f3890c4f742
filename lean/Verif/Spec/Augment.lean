import Verif.Spec.EndMarker

/-!
# Specification: adding an end marker to a grammar
-/

namespace Verif.Spec

variable {T : Type} [DecidableEq T]

/-- `start` and `stop` are two new symbols: they differ, are not `eps` and occur in no production. -/
structure Fresh (eps : T) (ps : List (Production T)) (start stop : T) : Prop where
  differ : start ≠ stop
  start_ne_eps : start ≠ eps
  stop_ne_eps : stop ≠ eps
  start_unused : ∀ p ∈ ps, p.input ≠ start ∧ start ∉ p.output
  stop_unused : ∀ p ∈ ps, p.input ≠ stop ∧ stop ∉ p.output

/-- The grammar with the production `start → init stop` in front. -/
def augment (init start stop : T) (ps : List (Production T)) : List (Production T) :=
  ⟨start, [init, stop]⟩ :: ps

/-- `x` can stand at the end of a form derived from `init`. -/
def CanEnd (eps : T) (ps : List (Production T)) (init x : T) : Prop :=
  ∃ u, Derives eps ps [init] (u ++ [x])

end Verif.Spec
