import Verif.Model.FirstFollow
import Verif.Spec.Derivation

/-!
# Specification: the textbook rules for FIRST and FOLLOW

The rules of the textbook (Aho, Lam, Sethi, Ullman, section 4.4.2) that sets of FIRST and FOLLOW symbols
given to the parser should be closed under.
-/

namespace Verif.Spec

variable {T : Type} [DecidableEq T]

/-- `a` is in the FIRST set given for `x`. -/
def InFirst (ff : FirstFollow T) (x a : T) : Prop := ∃ s, ff.getFirstSymbols x = some s ∧ a ∈ s

/-- `a` is in the FOLLOW set given for `x`. -/
def InFollow (ff : FirstFollow T) (x a : T) : Prop := ∃ s, ff.getFollowSymbols x = some s ∧ a ∈ s

/-- The sets are closed under the textbook rules. -/
structure ObeysRules (eps : T) (ps : List (Production T)) (ff : FirstFollow T) : Prop where
  /-- FIRST of a terminal contains it. -/
  terminal : ∀ a, IsTerminal ps a → InFirst ff a a
  /-- For `A → u y v` with `eps` in FIRST of all of `u`: FIRST(`y`) goes to FIRST(`A`). -/
  first : ∀ p ∈ ps, ∀ u y v a, p.output = u ++ y :: v → (∀ z ∈ u, InFirst ff z eps) → a ≠ eps →
    InFirst ff y a → InFirst ff p.input a
  /-- For `A → w` with `eps` in FIRST of all of `w`: `eps` is in FIRST(`A`). -/
  empty : ∀ p ∈ ps, (∀ z ∈ p.output, InFirst ff z eps) → InFirst ff p.input eps
  /-- For `A → u x m y v` with `eps` in FIRST of all of `m`: FIRST(`y`) goes to FOLLOW(`x`). -/
  follow : ∀ p ∈ ps, ∀ u x m y v a, p.output = u ++ x :: (m ++ y :: v) → IsNonTerminal ps x →
    (∀ z ∈ m, InFirst ff z eps) → a ≠ eps → InFirst ff y a → InFollow ff x a
  /-- For `A → u x v` with `eps` in FIRST of all of `v`: FOLLOW(`A`) goes to FOLLOW(`x`). -/
  last : ∀ p ∈ ps, ∀ u x v a, p.output = u ++ x :: v → IsNonTerminal ps x →
    (∀ z ∈ v, InFirst ff z eps) → InFollow ff p.input a → InFollow ff x a

end Verif.Spec
