import Verif.Spec.Derivation

/-!
# Specification: the stack machine of predictive parsing

The textbook's predictive parser without recursion: a stack of symbols, a table and the input. It succeeds when the stack
is empty, whatever is left of the input.
-/

namespace Verif.Spec

variable {T : Type}

/-- With the stack `st` and the input `w`, and the table `cand`, the machine can empty the stack. -/
inductive Empties (eps : T) (ps : List (Production T)) (cand : T → T → List (List T)) : List T → List T → Prop where
  | done (w : List T) : Empties eps ps cand [] w
  | skip (st w : List T) : Empties eps ps cand st w → Empties eps ps cand (eps :: st) w
  | read (a : T) (st w : List T) : ¬ IsNonTerminal ps a → a ≠ eps →
      Empties eps ps cand st w → Empties eps ps cand (a :: st) (a :: w)
  | expand (x a : T) (out st w : List T) : IsNonTerminal ps x → out ∈ cand x a →
      Empties eps ps cand (out ++ st) (a :: w) → Empties eps ps cand (x :: st) (a :: w)

end Verif.Spec
