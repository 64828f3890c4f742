import Verif.Model.Token

/-!
# Specification: two kinds of balanced words
-/

namespace Verif.Spec

variable {T : Type}

/-- `a … a b … b e` or `a … a c … c e`, with as many `b` or `c` as `a`. -/
def Forked (a b c e : T) (w : List T) : Prop :=
  ∃ n, w = List.replicate n a ++ List.replicate n b ++ [e] ∨ w = List.replicate n a ++ List.replicate n c ++ [e]

end Verif.Spec
