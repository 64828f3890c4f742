import Verif.Model.Token
import Verif.Model.Grammar

/-!
# Specification: expressions with infix operators on `n` levels of precedence

The usual grammar, for any number of levels. The operators of level 0 bind weakest. All associate to the left.
-/

namespace Verif.Spec

/-- The symbols. -/
inductive OpSym where
  /-- epsilon -/
  | empty
  /-- the initial symbol -/
  | start
  /-- the end marker -/
  | stop
  /-- expressions of a level -/
  | level (i : Nat)
  /-- the operators of a level and what comes behind them -/
  | rest (i : Nat)
  /-- the operator of a level -/
  | op (i : Nat)
  /-- a name or number -/
  | atom
  /-- a left parenthesis -/
  | lp
  /-- a right parenthesis -/
  | rp
  deriving DecidableEq

open OpSym

/-- The productions of a level. -/
def levelPs (i : Nat) : List (Production OpSym) :=
  [⟨level i, [level (i + 1), rest i]⟩, ⟨rest i, [op i, level (i + 1), rest i]⟩, ⟨rest i, [empty]⟩]

/-- The grammar: `start → level₀ stop`, the levels `0` to `n - 1`, and `levelₙ → atom | lp level₀ rp`. -/
def opsPs (n : Nat) : List (Production OpSym) :=
  ⟨start, [level 0, stop]⟩ ::
    ((List.range n).flatMap levelPs ++ [⟨level n, [atom]⟩, ⟨level n, [lp, level 0, rp]⟩])

variable {L : Type}

/-- Expressions. -/
inductive OpExpr (L : Type) where
  /-- a name or number, with its lexeme -/
  | atom (l : Option L)
  /-- an operator with its operands -/
  | bin (i : Nat) (a b : OpExpr L)

/-- All operators are of a level below `n`. -/
def OpExpr.Below (n : Nat) : OpExpr L → Prop
  | .atom _ => True
  | .bin i a b => i < n ∧ a.Below n ∧ b.Below n

/-- The expression as tokens, where an operator of level `k` or higher can stand: in parentheses only if its operator is
of a lower level. -/
def printExpr : Nat → OpExpr L → List (Token L OpSym)
  | _, .atom l => [⟨l, .atom⟩]
  | k, .bin i a b =>
    if k ≤ i then printExpr i a ++ ⟨none, op i⟩ :: printExpr (i + 1) b
    else ⟨none, lp⟩ :: (printExpr i a ++ ⟨none, op i⟩ :: printExpr (i + 1) b) ++ [⟨none, rp⟩]

/-- What the levels mean, as in the usual left-recursive grammar `levelₖ → levelₖ₊₁ | levelₖ opₖ levelₖ₊₁` and
`levelₙ → atom | lp level₀ rp`: the tokens are an expression of level `k`, namely `e`. -/
inductive IsLevel (n : Nat) : Nat → List (Token L OpSym) → OpExpr L → Prop where
  | up (k : Nat) (w : List (Token L OpSym)) (e : OpExpr L) : k < n → IsLevel n (k + 1) w e → IsLevel n k w e
  | bin (k : Nat) (u v : List (Token L OpSym)) (l : Option L) (a b : OpExpr L) : k < n → IsLevel n k u a →
      IsLevel n (k + 1) v b → IsLevel n k (u ++ ⟨l, op k⟩ :: v) (.bin k a b)
  | atom (l : Option L) : IsLevel n n [⟨l, .atom⟩] (.atom l)
  | paren (w : List (Token L OpSym)) (l l' : Option L) (e : OpExpr L) : IsLevel n 0 w e →
      IsLevel n n (⟨l, lp⟩ :: w ++ [⟨l', rp⟩]) e

/-- The words of infix notation, of which the grammar says nothing about precedence. -/
inductive InfixWord (n : Nat) : List OpSym → Prop where
  | atom : InfixWord n [.atom]
  | paren (w : List OpSym) : InfixWord n w → InfixWord n (lp :: w ++ [rp])
  | bin (i : Nat) (u v : List OpSym) : i < n → InfixWord n u → InfixWord n v → InfixWord n (u ++ op i :: v)

mutual
/-- How to read a tree of a level as an expression: operators are applied from left to right. -/
def readExpr : Node L OpSym → OpExpr L
  | .mk [] t => .atom t.lex
  | .mk [c] _ => readExpr c
  | .mk [c, r] _ => readRest (readExpr c) r
  | .mk (_ :: c :: _ :: _) _ => readExpr c
/-- The same for the operators behind an operand, and what comes behind them. -/
def readRest (e : OpExpr L) : Node L OpSym → OpExpr L
  | .mk [o, c, r] _ => match o with
    | .mk _ ⟨_, op i⟩ => readRest (.bin i e (readExpr c)) r
    | _ => e
  | .mk _ _ => e
end

/-- How to read the tree of a whole input. -/
def readTree : Node L OpSym → Option (OpExpr L)
  | .mk (c :: _) _ => some (readExpr c)
  | .mk [] _ => none

end Verif.Spec
