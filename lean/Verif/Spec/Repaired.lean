import Verif.Spec.Results
import Verif.Spec.Derivation
import Verif.Spec.ParseTree

/-!
# Specification: a repaired input

What a `Fix` result says about the input: a row of pieces, side by side. Some are tokens of the input, the
others are symbols that a fix of the solver stands for.
-/

namespace Verif.Spec

variable {σ L T : Type} [DecidableEq T]

/-- A piece of a repaired input. -/
inductive Piece (L T : Type) where
  /-- a token of the input -/
  | kept (t : Token L T)
  /-- a symbol in place of which the solver returned a fix -/
  | repaired (x : T)

/-- The symbol a piece stands for. -/
def Piece.symbol : Piece L T → T
  | .kept t => t.tType
  | .repaired x => x

/-- The tokens that were kept, in order. -/
def keptTokens : List (Piece L T) → List (Token L T)
  | [] => []
  | .kept t :: l => t :: keptTokens l
  | .repaired _ :: l => keptTokens l

/-- `Covers l i j`: the pieces `l` lie side by side in the input, from position `i` up to `j`: a kept token
is the token at its position; a repaired symbol begins where the solver was asked and ends where its fix said. -/
inductive Covers (solver : Option (Solver σ L T)) (tokens : List (Token L T)) :
    List (Piece L T) → Nat → Nat → Prop where
  | nil (i : Nat) : Covers solver tokens [] i i
  | kept (t : Token L T) (l : List (Piece L T)) (i j : Nat) : tokens[i]? = some t →
      Covers solver tokens l (i + 1) j → Covers solver tokens (.kept t :: l) i j
  | repaired (x : T) (l : List (Piece L T)) (i j : Nat) (r : FixResult L T) :
      SolverReturned solver tokens i r → Covers solver tokens l r.finalTokenPosition j →
      Covers solver tokens (.repaired x :: l) i j

/-- `Filled l w`: the word `w` is what becomes of the pieces if every repaired symbol is replaced by a word
derived from it. -/
inductive Filled (eps : T) (ps : List (Production T)) : List (Piece L T) → List T → Prop where
  | nil : Filled eps ps [] []
  | kept (t : Token L T) (l : List (Piece L T)) (w : List T) : Filled eps ps l w →
      Filled eps ps (.kept t :: l) (t.tType :: w)
  | repaired (x : T) (l : List (Piece L T)) (v w : List T) : Derives eps ps [x] v →
      Filled eps ps l w → Filled eps ps (.repaired x :: l) (v ++ w)

mutual
/-- `RepairedTree x i j fs w n`: the tree `n` over the tokens `w` is what becomes of the fixed symbol `fs`,
an `x` that spans the positions from `i` up to `j` of the input, if every fix of the solver is replaced by a
parse tree of the symbol it was returned for. -/
inductive RepairedTree (eps : T) (ps : List (Production T)) (solver : Option (Solver σ L T))
    (tokens : List (Token L T)) : T → Nat → Nat → FixedSymbol L T → List (Token L T) → Node L T → Prop where
  /-- the solver, asked at position `i`, returned the fix and its end; it is replaced -/
  | replaced (x : T) (i : Nat) (r : FixResult L T) (w : List (Token L T)) (n : Node L T) :
      SolverReturned solver tokens i r → IsTree eps ps x w n →
      RepairedTree eps ps solver tokens x i r.finalTokenPosition (.mk r.production x) w n
  /-- one part per symbol of the output of one of its productions, at least one of them fixed: the same with
  the parts repaired -/
  | built (p : Production T) (i j : Nat) (parts : List (FixedProductionPart L T)) (w : List (Token L T))
      (ns : List (Node L T)) : p ∈ ps → RepairedParts eps ps solver tokens p.output i j parts w ns →
      (∃ fs, FixedProductionPart.fixed fs ∈ parts) →
      RepairedTree eps ps solver tokens p.input i j (.mk (.mk parts) p.input) w (.mk ns ⟨none, p.input⟩)
/-- The same for the parts of a production. -/
inductive RepairedParts (eps : T) (ps : List (Production T)) (solver : Option (Solver σ L T))
    (tokens : List (Token L T)) : List T → Nat → Nat → List (FixedProductionPart L T) →
      List (Token L T) → List (Node L T) → Prop where
  | nil (i : Nat) : RepairedParts eps ps solver tokens [] i i [] [] []
  /-- a parse tree over the tokens from position `i` on is kept -/
  | kept (x : T) (xs : List T) (i j : Nat) (n : Node L T) (parts : List (FixedProductionPart L T))
      (w w' : List (Token L T)) (ns : List (Node L T)) : IsTree eps ps x w n → w <+: tokens.drop i →
      RepairedParts eps ps solver tokens xs (i + w.length) j parts w' ns →
      RepairedParts eps ps solver tokens (x :: xs) i j (.ok n :: parts) (w ++ w') (n :: ns)
  | fixed (x : T) (xs : List T) (i k j : Nat) (fs : FixedSymbol L T) (n : Node L T)
      (parts : List (FixedProductionPart L T)) (w w' : List (Token L T)) (ns : List (Node L T)) :
      RepairedTree eps ps solver tokens x i k fs w n →
      RepairedParts eps ps solver tokens xs k j parts w' ns →
      RepairedParts eps ps solver tokens (x :: xs) i j (.fixed fs :: parts) (w ++ w') (n :: ns)
end

end Verif.Spec
