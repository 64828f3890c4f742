import Verif.Model.Parser
import Verif.Spec.ParseTree

/-!
# Specification: the structure of `Err` and `Fix` results

`cand x a` stands for the candidate outputs of the symbol `x` when the next token has type `a`, i.e.
the cell `(x, a)` of the transition table.
-/

namespace Verif.Spec

variable {L T : Type} [DecidableEq T]

/-- How the symbols `xs` at the start of a production's output, parsed before the symbol that failed,
are reported in `parsed_symbols`: terminals (and `eps`) as leaves, fixed non-terminals as such if
there is a solver (`solver = true`), and every other non-terminal is left out. -/
inductive ParsedOf (eps : T) (ps : List (Production T)) (solver : Bool) :
    List T → List (ProductionParsedSymbol L T) → Prop where
  | nil : ParsedOf eps ps solver [] []
  | terminal (x : T) (xs : List T) (w : List (Token L T)) (n : Node L T)
      (l : List (ProductionParsedSymbol L T)) : ¬ IsNonTerminal ps x → IsTree eps ps x w n →
      ParsedOf eps ps solver xs l → ParsedOf eps ps solver (x :: xs) (.ok n :: l)
  | dropped (x : T) (xs : List T) (l : List (ProductionParsedSymbol L T)) : IsNonTerminal ps x →
      ParsedOf eps ps solver xs l → ParsedOf eps ps solver (x :: xs) l
  | fixed (x : T) (xs : List T) (fs : FixedSymbol L T) (l : List (ProductionParsedSymbol L T)) :
      IsNonTerminal ps x → solver = true → fs.symbolToDerive = x →
      ParsedOf eps ps solver xs l → ParsedOf eps ps solver (x :: xs) (.fix fs :: l)

mutual
/-- A `FailedSymbol` for the symbol `x`. -/
inductive FailedSymOk (eps : T) (ps : List (Production T)) (solver : Bool)
    (cand : T → T → List (List T)) (tokens : List (Token L T)) : T → FailedSymbol L T → Prop where
  /-- a terminal, without failed productions -/
  | terminal (x : T) : ¬ IsNonTerminal ps x → x ≠ eps →
      FailedSymOk eps ps solver cand tokens x (.mk [] x)
  /-- a non-terminal, with one failed production per candidate for some input token, in order -/
  | nonTerminal (x : T) (t : Token L T) (fps : List (FailedProduction L T)) : IsNonTerminal ps x →
      t ∈ tokens → FailedProdsOk eps ps solver cand tokens (cand x t.tType) fps →
      FailedSymOk eps ps solver cand tokens x (.mk fps x)
/-- One `FailedProduction` per output, in order. The output splits around the failed symbol; what
comes before is reported as `ParsedOf` says; the pending symbols are the last ones of the output, as
many as are needed to make the numbers fit. -/
inductive FailedProdsOk (eps : T) (ps : List (Production T)) (solver : Bool)
    (cand : T → T → List (List T)) (tokens : List (Token L T)) :
    List (List T) → List (FailedProduction L T) → Prop where
  | nil : FailedProdsOk eps ps solver cand tokens [] []
  | cons (before : List T) (x : T) (after : List T) (f : FailedSymbol L T)
      (parsed : List (ProductionParsedSymbol L T)) (outs : List (List T))
      (fps : List (FailedProduction L T)) :
      FailedSymOk eps ps solver cand tokens x f → ParsedOf eps ps solver before parsed →
      FailedProdsOk eps ps solver cand tokens outs fps →
      FailedProdsOk eps ps solver cand tokens ((before ++ x :: after) :: outs)
        (.mk f parsed ((before ++ x :: after).drop (parsed.length + 1)) :: fps)
end

/-- The symbol a parsed part of a failed production stands for. -/
def parsedLabel : ProductionParsedSymbol L T → T
  | .ok n => n.token.tType
  | .fix fs => fs.symbolToDerive

/-- The failed production `fp` occurs, at any depth, in the failed symbol. -/
inductive OccursIn (fp : FailedProduction L T) : FailedSymbol L T → Prop where
  | here (f : FailedSymbol L T) : fp ∈ f.failedProductions → OccursIn fp f
  | deep (f : FailedSymbol L T) (fp' : FailedProduction L T) : fp' ∈ f.failedProductions →
      OccursIn fp fp'.failedSymbol → OccursIn fp f

/-- The solver of the parser returned this fix for a position of these tokens in some call. -/
def SolverReturned {σ : Type} (solver : Option (Solver σ L T)) (tokens : List (Token L T))
    (pos : Nat) (r : FixResult L T) : Prop :=
  pos < tokens.length ∧ ∃ sv s s', solver = some sv ∧
    ((∃ f, sv.fixFailedProduction tokens pos f s = .ok (some r, s')) ∨
     (∃ fs, sv.fixFailedProductions tokens pos fs s = .ok (some r, s')))

mutual
/-- A `FixedSymbol` for the symbol `x`: its production was returned by the solver or is made of
parsed and fixed parts for the symbols of one of its productions, at least one part fixed. -/
inductive FixSymOk {σ : Type} (eps : T) (ps : List (Production T)) (solver : Option (Solver σ L T))
    (tokens : List (Token L T)) : T → FixedSymbol L T → Prop where
  | solver (x : T) (pos : Nat) (r : FixResult L T) : SolverReturned solver tokens pos r →
      FixSymOk eps ps solver tokens x (.mk r.production x)
  | built (p : Production T) (parts : List (FixedProductionPart L T)) : p ∈ ps →
      FixPartsOk eps ps solver tokens p.output parts →
      (∃ fs, FixedProductionPart.fixed fs ∈ parts) →
      FixSymOk eps ps solver tokens p.input (.mk (.mk parts) p.input)
/-- One part per symbol. -/
inductive FixPartsOk {σ : Type} (eps : T) (ps : List (Production T)) (solver : Option (Solver σ L T))
    (tokens : List (Token L T)) : List T → List (FixedProductionPart L T) → Prop where
  | nil : FixPartsOk eps ps solver tokens [] []
  | ok (x : T) (xs : List T) (w : List (Token L T)) (n : Node L T)
      (parts : List (FixedProductionPart L T)) : IsTree eps ps x w n → w.IsInfix tokens →
      FixPartsOk eps ps solver tokens xs parts →
      FixPartsOk eps ps solver tokens (x :: xs) (.ok n :: parts)
  | fixed (x : T) (xs : List T) (fs : FixedSymbol L T) (parts : List (FixedProductionPart L T)) :
      FixSymOk eps ps solver tokens x fs → FixPartsOk eps ps solver tokens xs parts →
      FixPartsOk eps ps solver tokens (x :: xs) (.fixed fs :: parts)
end

/-- Every fix of the solver ends behind the position it was asked to fix. -/
def SolverProgress {σ : Type} (solver : Option (Solver σ L T)) (tokens : List (Token L T)) : Prop :=
  ∀ pos r, SolverReturned solver tokens pos r → pos < r.finalTokenPosition

/-- Every fix of the solver ends at least `k` tokens behind the position it was asked to fix: with
`k = 1` the fixes make progress, with `k = 0` they never go back but may consume nothing (an
insertion). -/
def SolverMoves {σ : Type} (k : Nat) (solver : Option (Solver σ L T)) (tokens : List (Token L T)) :
    Prop :=
  ∀ pos r, SolverReturned solver tokens pos r → pos + k ≤ r.finalTokenPosition

/-- The calls of the solver always come to an end (by returning or by a panic). -/
def SolverTerminates {σ : Type} (solver : Option (Solver σ L T)) : Prop :=
  ∀ sv, solver = some sv →
    (∀ tokens pos f s, sv.fixFailedProduction tokens pos f s ≠ .fuel) ∧
    (∀ tokens pos fs s, sv.fixFailedProductions tokens pos fs s ≠ .fuel)

end Verif.Spec
