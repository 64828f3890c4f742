import Verif.Model.Grammar

/-!
# Specification: grammars for which FIRST and FOLLOW need many passes

Two families of grammars, and an iteration order, for the lower bounds of C64.
-/

namespace Verif.Spec

/-- The iteration order that visits non-terminals in increasing order. -/
def sortedOrder : HashOrder Nat where
  ord
    | .nonTerminals, l => l.mergeSort
    | _, l => l
  perm s l := by cases s <;> first | exact List.Perm.refl _ | exact List.mergeSort_perm _ _

/-- The productions of the ladder with `n` non-terminals `1, …, n`; epsilon is `0`, `b` is `n + 1`. -/
def ladderPs (n : Nat) : List (Production Nat) :=
  (List.range' 1 (n - 1)).map (fun k => ⟨k, [k + 1]⟩) ++ [⟨n, [0]⟩, ⟨n, [1, n + 1]⟩]

/-- `A₁ → c`, `A₂ → A₁`, …, `Aₙ → Aₙ₋₁`, `Aₙ → Aₙ b`; epsilon is `0`, `b` is `n + 1`, `c` is `n + 2`. -/
def stairsPs (n : Nat) : List (Production Nat) :=
  ⟨1, [n + 2]⟩ :: (List.range' 2 (n - 1)).map (fun k => ⟨k, [k - 1]⟩) ++ [⟨n, [n, n + 1]⟩]

end Verif.Spec
