import Verif.Spec.Results

/-!
# Specification: where the parts of a fixed symbol lie in the input
-/

namespace Verif.Spec

variable {σ L T : Type} [DecidableEq T]

mutual
/-- `FixAt x i j w fs`: `fs` is a fixed `x` that spans the positions from `i` up to `j` of the input,
and `w` are the tokens in the trees it was built from, in order. -/
inductive FixAt (eps : T) (ps : List (Production T)) (solver : Option (Solver σ L T))
    (tokens : List (Token L T)) : T → Nat → Nat → List (Token L T) → FixedSymbol L T → Prop where
  /-- the solver, asked at position `i`, returned the fix and its end -/
  | solver (x : T) (i : Nat) (r : FixResult L T) : SolverReturned solver tokens i r →
      FixAt eps ps solver tokens x i r.finalTokenPosition [] (.mk r.production x)
  /-- one part per symbol of the output of one of its productions, at least one of them fixed -/
  | built (p : Production T) (i j : Nat) (w : List (Token L T))
      (parts : List (FixedProductionPart L T)) : p ∈ ps →
      PartsAt eps ps solver tokens p.output i j w parts →
      (∃ fs, FixedProductionPart.fixed fs ∈ parts) →
      FixAt eps ps solver tokens p.input i j w (.mk (.mk parts) p.input)
/-- Parts for a sequence of symbols: every part begins where the one before it ended. -/
inductive PartsAt (eps : T) (ps : List (Production T)) (solver : Option (Solver σ L T))
    (tokens : List (Token L T)) :
    List T → Nat → Nat → List (Token L T) → List (FixedProductionPart L T) → Prop where
  | nil (i : Nat) : PartsAt eps ps solver tokens [] i i [] []
  /-- a parse tree over the tokens from position `i` on -/
  | ok (x : T) (xs : List T) (i j : Nat) (w w' : List (Token L T)) (n : Node L T)
      (parts : List (FixedProductionPart L T)) : IsTree eps ps x w n → w <+: tokens.drop i →
      PartsAt eps ps solver tokens xs (i + w.length) j w' parts →
      PartsAt eps ps solver tokens (x :: xs) i j (w ++ w') (.ok n :: parts)
  | fixed (x : T) (xs : List T) (i k j : Nat) (w w' : List (Token L T)) (fs : FixedSymbol L T)
      (parts : List (FixedProductionPart L T)) : IsNonTerminal ps x → FixAt eps ps solver tokens x i k w fs →
      PartsAt eps ps solver tokens xs k j w' parts →
      PartsAt eps ps solver tokens (x :: xs) i j (w ++ w') (.fixed fs :: parts)
end

/-- No fix of the solver ends before the position it was asked to fix. -/
def SolverForward (solver : Option (Solver σ L T)) (tokens : List (Token L T)) : Prop :=
  ∀ pos r, SolverReturned solver tokens pos r → pos ≤ r.finalTokenPosition

end Verif.Spec
