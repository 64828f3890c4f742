import Verif.Spec.Derivation

/-!
# Specification: LL(1) grammars, as in the textbook
-/

namespace Verif.Spec

variable {T : Type} [DecidableEq T]

/-- The terminal `a` predicts the production `p`: the right-hand side derives a form that begins with
`a`, or it derives the empty string and `a` can follow the left-hand side. -/
def Predicts (eps : T) (ps : List (Production T)) (p : Production T) (a : T) : Prop :=
  IsTerminal ps a ∧ a ≠ eps ∧
    ((∃ v, Derives eps ps (rhs eps p) (a :: v)) ∨
      (Derives eps ps (rhs eps p) [] ∧ CanFollow eps ps p.input a))

/-- LL(1): no terminal predicts two of the productions of a symbol (listed at different places). -/
def IsLL1 (eps : T) (ps : List (Production T)) : Prop :=
  ps.Pairwise (fun p q => p.input = q.input →
    ∀ a, ¬ (Predicts eps ps p a ∧ Predicts eps ps q a))

/-- A production that begins with a nullable non-terminal is the only one of its symbol. -/
def NullableLeadAlone (eps : T) (ps : List (Production T)) : Prop :=
  ∀ p ∈ ps, ∀ x r, rhs eps p = x :: r → Nullable eps ps x →
    ps.filter (fun q => q.input = p.input) = [p]

end Verif.Spec
