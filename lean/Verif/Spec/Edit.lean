import Verif.Spec.ParseTree

/-!
# Specification: replacing a node of a tree
-/

namespace Verif.Spec

variable {L T : Type} [DecidableEq T]

/-- `NodeReplaced eps m m' n n' u v`: the tree `n'` is the tree `n` with one occurrence of the node `m`, which has the tokens `u`
in front of it and the tokens `v` behind it, replaced by `m'`. -/
inductive NodeReplaced (eps : T) (m m' : Node L T) : Node L T → Node L T → List (Token L T) → List (Token L T) → Prop where
  | here : NodeReplaced eps m m' m m' [] []
  | inside (front : List (Node L T)) (c c' : Node L T) (back : List (Node L T)) (t : Token L T)
      (u v : List (Token L T)) : NodeReplaced eps m m' c c' u v →
      NodeReplaced eps m m' (.mk (front ++ c :: back) t) (.mk (front ++ c' :: back) t)
        (leavesList eps front ++ u) (v ++ leavesList eps back)

end Verif.Spec
