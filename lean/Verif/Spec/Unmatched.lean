import Verif.Spec.Derivation

/-! # Specification: tokens that no terminal matches -/

namespace Verif.Spec

variable {T : Type}

/-- A token type that matches no terminal of the grammar: a non-terminal, `eps`, or a symbol that no
right-hand side contains. -/
def Unmatched (eps : T) (ps : List (Production T)) (a : T) : Prop :=
  IsNonTerminal ps a ∨ a = eps ∨ ∀ p ∈ ps, a ∉ p.output

end Verif.Spec
