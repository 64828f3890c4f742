import Verif.Spec.ParseTree

/-!
# Specification: the nodes of a tree and where they begin
-/

namespace Verif.Spec

variable {L T : Type} [DecidableEq T]

/-- `Occurs ns i m j`: in a list of trees whose first leaf is at position `i`, the node `m` occurs, as one of
the trees or below one of them, and its first leaf is at position `j`. Leaves of type `eps` take no place. -/
inductive Occurs (eps : T) : List (Node L T) → Nat → Node L T → Nat → Prop where
  | here (n : Node L T) (ns : List (Node L T)) (i : Nat) : Occurs eps (n :: ns) i n i
  | behind (n : Node L T) (ns : List (Node L T)) (i : Nat) (m : Node L T) (j : Nat) :
      Occurs eps ns (i + (leaves eps n).length) m j → Occurs eps (n :: ns) i m j
  | inside (cs : List (Node L T)) (t : Token L T) (ns : List (Node L T)) (i : Nat) (m : Node L T) (j : Nat) :
      Occurs eps cs i m j → Occurs eps (.mk cs t :: ns) i m j

/-- The types of the children. -/
def childTypes (n : Node L T) : List T := n.childNodes.map (·.token.tType)

end Verif.Spec
