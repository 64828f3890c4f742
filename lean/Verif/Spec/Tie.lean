import Verif.Spec.Rewrite
import Verif.Spec.EndMarker

/-!
# Specification: nesting in brackets
-/

namespace Verif.Spec

variable {T : Type} [DecidableEq T]

/-- The grammar with `b → op a cl` behind. -/
def tied (b op a cl : T) (ps : List (Production T)) : List (Production T) :=
  ps ++ [⟨b, [op, a, cl]⟩]

/-- `b` is no non-terminal of the grammar; the brackets `op` and `cl` are two new symbols. -/
structure Ties (eps b op cl : T) (ps : List (Production T)) : Prop where
  ne_eps : b ≠ eps
  terminal : ¬ IsNonTerminal ps b
  new_op : NewSymbol eps ps op
  new_cl : NewSymbol eps ps cl
  differ : b ≠ op ∧ b ≠ cl ∧ op ≠ cl

/-- `w` is `u` with every `b` replaced by `op v cl`, where `v` is a word of `S` in which the same was done, and so on
to any depth. -/
inductive Nested (b op cl : T) (S : List T → Prop) : List T → List T → Prop where
  | nil : Nested b op cl S [] []
  | keep (c : T) (u w : List T) : c ≠ b → Nested b op cl S u w → Nested b op cl S (c :: u) (c :: w)
  | put (v' v u w : List T) : S v' → Nested b op cl S v' v → Nested b op cl S u w →
      Nested b op cl S (b :: u) (op :: v ++ cl :: w)

end Verif.Spec
