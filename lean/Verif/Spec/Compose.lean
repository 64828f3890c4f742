import Verif.Spec.Unite
import Verif.Spec.ParseTree
import Verif.Spec.Rewrite

/-!
# Specification: one grammar after another one, and a grammar repeated
-/

namespace Verif.Spec

variable {L T : Type} [DecidableEq T]

/-- The two grammars with `start → a b` in front. -/
def chain (start a b : T) (ps qs : List (Production T)) : List (Production T) :=
  ⟨start, [a, b]⟩ :: (ps ++ qs)

/-- The grammar with `many → a many` and `many → eps` in front. -/
def repeated (eps many a : T) (ps : List (Production T)) : List (Production T) :=
  ⟨many, [a, many]⟩ :: ⟨many, [eps]⟩ :: ps

/-- The tree of `many` over the given trees: each one has the rest at its right. -/
def manyTree (eps many : T) : List (Node L T) → Node L T
  | [] => .mk [.mk [] ⟨none, eps⟩] ⟨none, many⟩
  | n :: ns => .mk [n, manyTree eps many ns] ⟨none, many⟩

end Verif.Spec
