import Verif.Spec.EndMarker

/-!
# Specification: inputs on which retrying one symbol is enough
-/

namespace Verif.Spec

variable {L T : Type} [DecidableEq T]

/-- All parses of the symbols `xs` that begin at position `i` of the input end at the same position. -/
def EndsOnce (eps : T) (ps : List (Production T)) (tokens : List (Token L T)) (xs : List T)
    (i : Nat) : Prop :=
  ∀ w w' ns ns', IsForest eps ps xs w ns → IsForest eps ps xs w' ns' → w <+: tokens.drop i →
    w' <+: tokens.drop i → w.length = w'.length

/-- Wherever a non-terminal `x` is to be parsed in a production, with the symbols `xs` behind it:
there is at most one candidate, or `x` has one end only, or each of the candidates has one end only and
`x` and `xs` together have one end only. -/
def RetriesSuffice (eps : T) (ps : List (Production T)) (cand : T → T → List (List T))
    (tokens : List (Token L T)) : Prop :=
  ∀ p ∈ ps, ∀ before x xs, p.output = before ++ x :: xs → IsNonTerminal ps x →
    ∀ i t, tokens[i]? = some t →
      (cand x t.tType).length ≤ 1 ∨ EndsOnce eps ps tokens [x] i ∨
      ((∀ out ∈ cand x t.tType, EndsOnce eps ps tokens out i) ∧ EndsOnce eps ps tokens (x :: xs) i)

/-- The symbol `x` derives no two different terminal strings one of which begins with the other. -/
def PrefixFree (eps : T) (ps : List (Production T)) (x : T) : Prop :=
  ∀ u v, Derives eps ps [x] u → Derives eps ps [x] (u ++ v) →
    (∀ a ∈ u ++ v, IsTerminal ps a ∧ a ≠ eps) → v = []

end Verif.Spec
