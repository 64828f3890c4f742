import Verif.Model.Parser

/-!
# Specification: the single path

`cand x a` stands for the candidate outputs of the non-terminal `x`, in order, when the next token has
type `a`.
-/

namespace Verif.Spec

variable {L T : Type}

/-- `SinglePath cand tokens init x pos`: the symbol `x`, to be derived at `pos`, is the initial symbol,
or occurs in the last candidate of a symbol on the single path, for the token at which that symbol is
derived. So no ancestor of `x` has another candidate left to try. -/
inductive SinglePath (cand : T → T → List (List T)) (tokens : List (Token L T)) (init : T) :
    T → Nat → Prop where
  | root : SinglePath cand tokens init init 0
  | child (x : T) (pos : Nat) (t : Token L T) (out : List T) (y : T) (q : Nat) :
      SinglePath cand tokens init x pos → tokens[pos]? = some t → [out].IsSuffix (cand x t.tType) →
      y ∈ out → SinglePath cand tokens init y q

end Verif.Spec
