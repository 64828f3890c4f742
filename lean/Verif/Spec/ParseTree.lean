import Verif.Model.Token
import Verif.Spec.Derivation

/-!
# Specification: parse trees

`IsTree eps ps x w n` says that `n` is a parse tree of the symbol `x` over the tokens `w` for the
productions `ps`: the root is labelled `x`, the children of every inner node are labelled, in order,
by the output of a production of its label, and the leaves are, from left to right, the tokens `w`
themselves (lexemes included) and `eps` leaves without lexeme.
-/

namespace Verif.Spec

variable {L T : Type} [DecidableEq T]

mutual
/-- Parse trees of a symbol. -/
inductive IsTree (eps : T) (ps : List (Production T)) : T → List (Token L T) → Node L T → Prop where
  /-- a terminal is a leaf made of an input token of that type -/
  | leaf (t : Token L T) : ¬ IsNonTerminal ps t.tType → t.tType ≠ eps →
      IsTree eps ps t.tType [t] (.mk [] t)
  /-- `eps` is a leaf without lexeme and covers no token -/
  | eps : IsTree eps ps eps [] (.mk [] ⟨none, eps⟩)
  /-- a non-terminal is expanded by one of its productions and carries no lexeme -/
  | node (p : Production T) (w : List (Token L T)) (ns : List (Node L T)) : p ∈ ps →
      IsForest eps ps p.output w ns → IsTree eps ps p.input w (.mk ns ⟨none, p.input⟩)
/-- Sequences of parse trees for a sequence of symbols. -/
inductive IsForest (eps : T) (ps : List (Production T)) :
    List T → List (Token L T) → List (Node L T) → Prop where
  | nil : IsForest eps ps [] [] []
  | cons (x : T) (xs : List T) (w w' : List (Token L T)) (n : Node L T) (ns : List (Node L T)) :
      IsTree eps ps x w n → IsForest eps ps xs w' ns → IsForest eps ps (x :: xs) (w ++ w') (n :: ns)
end

mutual
/-- The tokens at the leaves of a tree from left to right, `eps` leaves left out. -/
def leaves (eps : T) : Node L T → List (Token L T)
  | .mk [] t => if t.tType = eps then [] else [t]
  | .mk (c :: cs) _ => leaves eps c ++ leavesList eps cs
/-- The same for a list of trees. -/
def leavesList (eps : T) : List (Node L T) → List (Token L T)
  | [] => []
  | n :: ns => leaves eps n ++ leavesList eps ns
end

end Verif.Spec
