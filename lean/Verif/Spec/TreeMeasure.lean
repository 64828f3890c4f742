import Verif.Model.Parser

/-! # Specification: the height and the number of nodes of a tree -/

namespace Verif.Spec

variable {L T : Type}

mutual
/-- The number of edges on a longest path from the root to a leaf. -/
def height : Node L T → Nat
  | .mk [] _ => 0
  | .mk (c :: cs) _ => 1 + max (height c) (heightList cs)
/-- The greatest height in a list of trees. -/
def heightList : List (Node L T) → Nat
  | [] => 0
  | n :: ns => max (height n) (heightList ns)
end

mutual
/-- The number of nodes. -/
def nodes : Node L T → Nat
  | .mk cs _ => 1 + nodesList cs
/-- The number of nodes of a list of trees. -/
def nodesList : List (Node L T) → Nat
  | [] => 0
  | n :: ns => nodes n + nodesList ns
end

end Verif.Spec
