import Verif.Model.Grammar

/-!
# Sample grammars used to show that hypotheses can be met

Symbols are numbers; `0` is the epsilon symbol everywhere.
-/

namespace Verif.Examples

/-- The expression grammar of the dragon book with an end marker:
`S → E $`, `E → T E'`, `E' → + T E' | ε`, `T → F T'`, `T' → * F T' | ε`, `F → ( E ) | id`, with
`S = 1, E = 2, E' = 3, T = 4, T' = 5, F = 6` and `+ = 11, * = 12, ( = 13, ) = 14, id = 15, $ = 16`. -/
def exprPs : List (Production Nat) :=
  [⟨1, [2, 16]⟩, ⟨2, [4, 3]⟩, ⟨3, [11, 4, 3]⟩, ⟨3, [0]⟩, ⟨4, [6, 5]⟩, ⟨5, [12, 6, 5]⟩, ⟨5, [0]⟩,
   ⟨6, [13, 2, 14]⟩, ⟨6, [15]⟩]

/-- An ambiguous grammar with a left-recursive and a nullable symbol: `S → S a | B`, `B → ε | b`. -/
def leftPs : List (Production Nat) := [⟨1, [1, 10]⟩, ⟨1, [2]⟩, ⟨2, [0]⟩, ⟨2, [11]⟩]

/-- Two equal adjacent non-terminals: `S → X X $`, `X → a Z`, `Z → b | ε`, with
`S = 1, X = 2, Z = 3, a = 10, b = 11, $ = 12`. -/
def twicePs : List (Production Nat) := [⟨1, [2, 2, 12]⟩, ⟨2, [10, 3]⟩, ⟨3, [11]⟩, ⟨3, [0]⟩]

/-- Nullable leading non-terminals: `S → A x | B y | z A y`, `A → ε`, `B → ε`, with
`S = 1, A = 2, B = 3, x = 10, y = 11, z = 12`. -/
def leadPs : List (Production Nat) :=
  [⟨1, [2, 10]⟩, ⟨1, [3, 11]⟩, ⟨1, [12, 2, 11]⟩, ⟨2, [0]⟩, ⟨3, [0]⟩]

end Verif.Examples
