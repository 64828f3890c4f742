import Verif.Spec.FixAt
import Verif.Spec.Predicted

/-!
# Specification: where the parts of a failure report lie in the input

`FailsAt x i f`: the report `f` describes how deriving the symbol `x` at position `i` of the input fails, with
all candidates in the order of the table, and with the symbols of each candidate one after the other.
-/

namespace Verif.Spec

variable {σ L T : Type} [DecidableEq T]

/-- The symbols of a candidate before the one that failed span the positions from `i` up to `j`; `l` are the
parts reported for them. -/
inductive Before (eps : T) (ps : List (Production T)) (cand : T → T → List (List T))
    (solver : Option (Solver σ L T)) (tokens : List (Token L T)) :
    List T → Nat → List (ProductionParsedSymbol L T) → Nat → Prop where
  | nil (i : Nat) : Before eps ps cand solver tokens [] i [] i
  /-- `eps` covers no token -/
  | eps (xs : List T) (i j : Nat) (l : List (ProductionParsedSymbol L T)) :
      Before eps ps cand solver tokens xs i l j →
      Before eps ps cand solver tokens (eps :: xs) i (.ok (.mk [] ⟨none, eps⟩) :: l) j
  /-- a terminal is the token at its position -/
  | terminal (xs : List T) (i j : Nat) (t : Token L T) (l : List (ProductionParsedSymbol L T)) :
      ¬ IsNonTerminal ps t.tType → t.tType ≠ eps → tokens[i]? = some t →
      Before eps ps cand solver tokens xs (i + 1) l j →
      Before eps ps cand solver tokens (t.tType :: xs) i (.ok (.mk [] t) :: l) j
  /-- a derived non-terminal has a predicted tree, and is left out of the report -/
  | derived (x : T) (xs : List T) (i k j : Nat) (n : Node L T) (l : List (ProductionParsedSymbol L T)) :
      IsNonTerminal ps x → Predicted eps ps cand tokens x i n k →
      Before eps ps cand solver tokens xs k l j → Before eps ps cand solver tokens (x :: xs) i l j
  /-- a fixed non-terminal is reported with its fix -/
  | fixed (x : T) (xs : List T) (i k j : Nat) (w : List (Token L T)) (fs : FixedSymbol L T)
      (l : List (ProductionParsedSymbol L T)) : IsNonTerminal ps x → FixAt eps ps solver tokens x i k w fs →
      Before eps ps cand solver tokens xs k l j →
      Before eps ps cand solver tokens (x :: xs) i (.fix fs :: l) j

mutual
/-- The report of a symbol that fails at a position. -/
inductive FailsAt (eps : T) (ps : List (Production T)) (cand : T → T → List (List T))
    (solver : Option (Solver σ L T)) (tokens : List (Token L T)) : T → Nat → FailedSymbol L T → Prop where
  /-- a terminal, where no token of its type is -/
  | terminal (x : T) (i : Nat) : ¬ IsNonTerminal ps x → x ≠ eps →
      (∀ t, tokens[i]? = some t → t.tType ≠ x) → FailsAt eps ps cand solver tokens x i (.mk [] x)
  /-- a non-terminal, all of whose candidates for the token there fail -/
  | nonTerminal (x : T) (i : Nat) (t : Token L T) (fps : List (FailedProduction L T)) :
      IsNonTerminal ps x → tokens[i]? = some t →
      EachFailsAt eps ps cand solver tokens i (cand x t.tType) fps →
      FailsAt eps ps cand solver tokens x i (.mk fps x)
/-- The reports of candidates that fail at a position, in order: a symbol fails where the symbols before it
end; the pending symbols are the last ones, as many as are needed to make the numbers fit. -/
inductive EachFailsAt (eps : T) (ps : List (Production T)) (cand : T → T → List (List T))
    (solver : Option (Solver σ L T)) (tokens : List (Token L T)) :
    Nat → List (List T) → List (FailedProduction L T) → Prop where
  | nil (i : Nat) : EachFailsAt eps ps cand solver tokens i [] []
  | cons (i j : Nat) (before : List T) (y : T) (after : List T) (f : FailedSymbol L T)
      (parsed : List (ProductionParsedSymbol L T)) (outs : List (List T))
      (fps : List (FailedProduction L T)) : Before eps ps cand solver tokens before i parsed j →
      FailsAt eps ps cand solver tokens y j f → EachFailsAt eps ps cand solver tokens i outs fps →
      EachFailsAt eps ps cand solver tokens i ((before ++ y :: after) :: outs)
        (.mk f parsed ((before ++ y :: after).drop (parsed.length + 1)) :: fps)
end

mutual
/-- How many failed symbols are nested in a report. -/
def reportDepth : FailedSymbol L T → Nat
  | .mk fps _ => 1 + reportDepthList fps
/-- How many failed symbols are nested in a failed production. -/
def reportDepthProduction : FailedProduction L T → Nat
  | .mk f _ _ => reportDepth f
/-- How many failed symbols are nested in a list of failed productions. -/
def reportDepthList : List (FailedProduction L T) → Nat
  | [] => 0
  | fp :: fps => max (reportDepthProduction fp) (reportDepthList fps)
end

end Verif.Spec
