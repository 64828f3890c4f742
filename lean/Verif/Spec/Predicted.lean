import Verif.Model.Token
import Verif.Spec.Derivation

/-!
# Specification: trees of predictive parsing

`Predicted cand tokens x i n j`: the tree `n` derives the symbol `x` from the tokens `i, …, j - 1`, and every
non-terminal in it is expanded by an output that `cand` has for it and the token the expansion begins at.
With the cells of a parsing table for `cand` these are the trees that predictive parsing can build.
-/

namespace Verif.Spec

variable {L T : Type}

mutual
/-- Predicted trees of a symbol. -/
inductive Predicted (eps : T) (ps : List (Production T)) (cand : T → T → List (List T))
    (tokens : List (Token L T)) : T → Nat → Node L T → Nat → Prop where
  /-- a terminal is the token at the position -/
  | leaf (t : Token L T) (i : Nat) : ¬ IsNonTerminal ps t.tType → t.tType ≠ eps →
      tokens[i]? = some t → Predicted eps ps cand tokens t.tType i (.mk [] t) (i + 1)
  /-- `eps` covers no token -/
  | eps (i : Nat) : Predicted eps ps cand tokens eps i (.mk [] ⟨none, eps⟩) i
  /-- a non-terminal is expanded by an entry of its cell for the token at the position -/
  | node (x : T) (i : Nat) (t : Token L T) (out : List T) (ns : List (Node L T)) (j : Nat) :
      IsNonTerminal ps x → tokens[i]? = some t → out ∈ cand x t.tType →
      PredictedSeq eps ps cand tokens out i ns j →
      Predicted eps ps cand tokens x i (.mk ns ⟨none, x⟩) j
/-- Predicted trees of a sequence of symbols. -/
inductive PredictedSeq (eps : T) (ps : List (Production T)) (cand : T → T → List (List T))
    (tokens : List (Token L T)) : List T → Nat → List (Node L T) → Nat → Prop where
  | nil (i : Nat) : PredictedSeq eps ps cand tokens [] i [] i
  | cons (x : T) (xs : List T) (i j k : Nat) (n : Node L T) (ns : List (Node L T)) :
      Predicted eps ps cand tokens x i n j → PredictedSeq eps ps cand tokens xs j ns k →
      PredictedSeq eps ps cand tokens (x :: xs) i (n :: ns) k
end

end Verif.Spec
