import Verif.Model.Token

/-! # Specification: subtrees -/

namespace Verif.Spec

variable {L T : Type}

/-- `m` is `n` or a node below it. -/
inductive Subtree (m : Node L T) : Node L T → Prop where
  | self : Subtree m m
  | child (c : Node L T) (ns : List (Node L T)) (t : Token L T) : c ∈ ns → Subtree m c →
      Subtree m (.mk ns t)

end Verif.Spec
