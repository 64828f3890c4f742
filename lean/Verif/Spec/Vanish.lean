import Verif.Spec.OrderedChoice

/-!
# Specification: symbols derived as the empty string by their first candidates
-/

namespace Verif.Spec

variable {T : Type}

/-- With a token of type `a` next, the first candidate of every non-terminal met derives the empty
string: each of the symbols is `eps` or a non-terminal whose first candidate vanishes in turn. -/
inductive Vanishes (eps : T) (ps : List (Production T)) (cand : T → T → List (List T)) (a : T) :
    List T → Prop where
  | nil : Vanishes eps ps cand a []
  | eps (xs : List T) : Vanishes eps ps cand a xs → Vanishes eps ps cand a (eps :: xs)
  | nonTerminal (x : T) (xs out : List T) (outs : List (List T)) : IsNonTerminal ps x →
      cand x a = out :: outs → Vanishes eps ps cand a out → Vanishes eps ps cand a xs →
      Vanishes eps ps cand a (x :: xs)

/-- `S` is a set of symbols that, with a token of type `a` next, lead to each other: the first
candidate of each has, behind symbols that vanish, a non-terminal of `S` again. -/
def Loops (eps : T) (ps : List (Production T)) (cand : T → T → List (List T)) (a : T) (S : T → Prop) :
    Prop :=
  ∀ x, S x → ∃ u y v outs, cand x a = (u ++ y :: v) :: outs ∧ Vanishes eps ps cand a u ∧
    IsNonTerminal ps y ∧ S y

end Verif.Spec
