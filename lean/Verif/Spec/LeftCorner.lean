import Verif.Spec.SetRules

/-!
# Specification: with which non-terminals the outputs of a symbol may begin
-/

namespace Verif.Spec

variable {T : Type} [DecidableEq T]

/-- By the FIRST sets in `ff`, what is derived from `x` may begin with the non-terminal `y`: some production of `x`
has `y` in its output and the symbols in front of it have `eps` in their FIRST sets. -/
def MayBegin (eps : T) (ps : List (Production T)) (ff : FirstFollow T) (x y : T) : Prop :=
  IsNonTerminal ps y ∧ ∃ q ∈ ps, q.input = x ∧ ∃ u v, q.output = u ++ y :: v ∧ ∀ z ∈ u, InFirst ff z eps

/-- `x`, then `y`, then … : one or more steps of `MayBegin`. -/
inductive MayLeadTo (eps : T) (ps : List (Production T)) (ff : FirstFollow T) : T → T → Prop where
  | one {x y : T} : MayBegin eps ps ff x y → MayLeadTo eps ps ff x y
  | more {x y z : T} : MayBegin eps ps ff x y → MayLeadTo eps ps ff y z → MayLeadTo eps ps ff x z

end Verif.Spec
