import Verif.Spec.Rename
import Verif.Spec.Derivation

/-!
# Specification: grammars made coarser by merging symbols
-/

namespace Verif.Spec

variable {T T' : Type}

/-- `f` merges symbols of `ps` into those of `ps'`: each production of `ps` becomes one of `ps'` (which may have more),
the epsilon symbol becomes the epsilon symbol and nothing else does, and no symbol without productions becomes one with
productions. Terminals may be merged with each other, and so may non-terminals. -/
structure Coarser (f : T → T') (eps : T) (ps : List (Production T)) (eps' : T') (ps' : List (Production T')) : Prop where
  eps : ∀ x, f x = eps' ↔ x = eps
  productions : ∀ p ∈ ps, renProduction f p ∈ ps'
  terminals : ∀ a, IsNonTerminal ps' (f a) → IsNonTerminal ps a

end Verif.Spec
