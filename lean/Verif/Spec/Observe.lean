import Verif.Model.Parser

/-!
# Specification: what a user of the library observes

Runs of the public API, on the model.
-/

namespace Verif.Spec

variable {σ L T : Type} [DecidableEq T]

/-- The public constructor, `from_grammar` or `from_grammar_and_solver`, applied to the grammar `g`
under the hash order `h`, returns the parser `p`. -/
def Built (h : HashOrder T) (g : Grammar T) (solver : Option (Solver σ L T)) (p : Parser σ L T) :
    Prop :=
  match solver with
  | none => Returns (fun n => Parser.fromGrammar h n g) p
  | some sv => Returns (fun n => Parser.fromGrammarAndSolver h n g sv) p

/-- `p.parse_from_tokens(tokens)`, with the solver in state `s`, returns `r` and leaves the solver in
state `s'`. -/
def Parses (p : Parser σ L T) (tokens : List (Token L T)) (s : σ) (r : ParseResult L T) (s' : σ) :
    Prop :=
  Returns (fun n => p.parseFromTokens n tokens s) (r, s')

/-- `p.parse_from_tokens(tokens)` panics. -/
def ParsePanics (p : Parser σ L T) (tokens : List (Token L T)) (s : σ) : Prop :=
  Panics (fun n => p.parseFromTokens n tokens s)

/-- `p.parse_from_tokens(tokens)` never returns. -/
def ParseDiverges (p : Parser σ L T) (tokens : List (Token L T)) (s : σ) : Prop :=
  Diverges (fun n => p.parseFromTokens n tokens s)

/-- The outputs of the productions in a table cell, in order; none if there is no such cell. -/
def candidates (t : Transitions T) (x a : T) : List (List T) :=
  ((t.getProductions x a).getD []).map (·.output)

/-- No table cell holds more than one production. -/
def ConflictFree (t : Transitions T) : Prop := ∀ x a l, t.getProductions x a = some l → l.length ≤ 1

/-- `parse_from_tokens` does the same in both parsers: it returns the same result in the same solver
state, or panics, or does not return, in both. -/
def SameOutcomes (p p' : Parser σ L T) (tokens : List (Token L T)) (s : σ) : Prop :=
  (∀ r s', Parses p tokens s r s' ↔ Parses p' tokens s r s') ∧
  (ParsePanics p tokens s ↔ ParsePanics p' tokens s) ∧
  (ParseDiverges p tokens s ↔ ParseDiverges p' tokens s)

end Verif.Spec
