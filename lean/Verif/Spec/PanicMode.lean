import Verif.Spec.FixAt
import Verif.Spec.EndMarker

/-!
# Specification: solvers that always repair, and panic mode

The lexemes a `Fix` result accounts for, solvers that answer every call with a fix that lies within the
input, and a solver of this kind: panic mode, which skips to the next of some synchronizing tokens.
-/

namespace Verif.Spec

variable {σ L T : Type} [DecidableEq T]

mutual
/-- The lexemes in a fixed symbol from left to right: those of its parse trees and those it says were
skipped. -/
def fixedLexemes (eps : T) : FixedSymbol L T → List L
  | .mk p _ => productionLexemes eps p
/-- The same for a fixed production. -/
def productionLexemes (eps : T) : FixedProduction L T → List L
  | .mk parts => partsLexemes eps parts
/-- The same for the parts of a fixed production. -/
def partsLexemes (eps : T) : List (FixedProductionPart L T) → List L
  | [] => []
  | part :: parts => partLexemes eps part ++ partsLexemes eps parts
/-- The same for one part. -/
def partLexemes (eps : T) : FixedProductionPart L T → List L
  | .ok n => (leaves eps n).filterMap (·.lex)
  | .fixed f => fixedLexemes eps f
  | .gap g => g.skippedTokens
end

/-- Every call about these tokens is answered by a fix that does not go back and does not skip the last
token. -/
def AlwaysRepairs (sv : Solver σ L T) (tokens : List (Token L T)) : Prop :=
  ∀ pos, pos < tokens.length →
    (∀ fp s, ∃ r s', sv.fixFailedProduction tokens pos fp s = .ok (some r, s') ∧
      pos ≤ r.finalTokenPosition ∧ r.finalTokenPosition < tokens.length) ∧
    (∀ fps s, ∃ r s', sv.fixFailedProductions tokens pos fps s = .ok (some r, s') ∧
      pos ≤ r.finalTokenPosition ∧ r.finalTokenPosition < tokens.length)

/-- Every fix accounts for the tokens it spans: its lexemes are those of the tokens from the position asked
up to the position where it says to go on. -/
def Accounts (eps : T) (solver : Option (Solver σ L T)) (tokens : List (Token L T)) : Prop :=
  ∀ pos r, SolverReturned solver tokens pos r →
    pos ≤ r.finalTokenPosition ∧ r.finalTokenPosition ≤ tokens.length ∧
    productionLexemes eps r.production =
      ((tokens.drop pos).take (r.finalTokenPosition - pos)).filterMap (·.lex)

/-- The tokens from position `pos` on in front of the first synchronizing one; the last token is never
among them. -/
def skippedFrom (sync : T → Bool) (tokens : List (Token L T)) (pos : Nat) : List (Token L T) :=
  (tokens.drop pos).dropLast.takeWhile (fun t => !sync t.tType)

/-- The fix of panic mode: skip the tokens in front of the next synchronizing one and the given symbols. -/
def skipFix (sync : T → Bool) (tokens : List (Token L T)) (pos : Nat) (missing : List T) : FixResult L T :=
  ⟨pos + (skippedFrom sync tokens pos).length,
    .mk [.gap ⟨(skippedFrom sync tokens pos).filterMap (·.lex), missing⟩]⟩

/-- Panic mode: every failure is repaired by skipping to the next synchronizing token (at the latest to the
last token). The symbols that are reported as skipped are the one that failed and those behind it. -/
def panicMode (sync : T → Bool) : Solver σ L T where
  fixFailedProduction tokens pos fp := fun s =>
    .ok (some (skipFix sync tokens pos (fp.failedSymbol.symbolToDerive :: fp.pendingSymbols)), s)
  fixFailedProductions tokens pos _ := fun s => .ok (some (skipFix sync tokens pos []), s)

end Verif.Spec
