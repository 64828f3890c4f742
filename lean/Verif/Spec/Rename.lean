import Verif.Model.Parser

/-!
# Specification: renaming the symbols of grammars, tokens and results
-/

namespace Verif.Spec

variable {L T T' : Type}

/-- Rename the symbols of a production. -/
def renProduction (f : T → T') (p : Production T) : Production T' := ⟨f p.input, p.output.map f⟩

/-- Rename the type of a token. -/
def renToken (f : T → T') (t : Token L T) : Token L T' := ⟨t.lex, f t.tType⟩

mutual
/-- Rename all symbols in a tree. -/
def renNode (f : T → T') : Node L T → Node L T'
  | .mk cs t => .mk (renNodes f cs) (renToken f t)
/-- The same in a list of trees. -/
def renNodes (f : T → T') : List (Node L T) → List (Node L T')
  | [] => []
  | n :: ns => renNode f n :: renNodes f ns
end

/-- The same in a gap. -/
def renGap (f : T → T') (g : FixGap L T) : FixGap L T' := ⟨g.skippedTokens, g.skippedSymbols.map f⟩

mutual
/-- The same in a fixed symbol. -/
def renFixedSymbol (f : T → T') : FixedSymbol L T → FixedSymbol L T'
  | .mk p x => .mk (renFixedProduction f p) (f x)
/-- The same in a fixed production. -/
def renFixedProduction (f : T → T') : FixedProduction L T → FixedProduction L T'
  | .mk parts => .mk (renFixedParts f parts)
/-- The same in a part of a fixed production. -/
def renFixedPart (f : T → T') : FixedProductionPart L T → FixedProductionPart L T'
  | .ok n => .ok (renNode f n)
  | .fixed s => .fixed (renFixedSymbol f s)
  | .gap g => .gap (renGap f g)
/-- The same in a list of parts. -/
def renFixedParts (f : T → T') : List (FixedProductionPart L T) → List (FixedProductionPart L T')
  | [] => []
  | p :: ps => renFixedPart f p :: renFixedParts f ps
end

/-- The same in a parsed symbol of a failed production. -/
def renParsed (f : T → T') : ProductionParsedSymbol L T → ProductionParsedSymbol L T'
  | .ok n => .ok (renNode f n)
  | .fix s => .fix (renFixedSymbol f s)

mutual
/-- The same in a failed symbol. -/
def renFailedSymbol (f : T → T') : FailedSymbol L T → FailedSymbol L T'
  | .mk fps x => .mk (renFailedProductions f fps) (f x)
/-- The same in a failed production. -/
def renFailedProduction (f : T → T') : FailedProduction L T → FailedProduction L T'
  | .mk fs parsed pending => .mk (renFailedSymbol f fs) (parsed.map (renParsed f)) (pending.map f)
/-- The same in a list of failed productions. -/
def renFailedProductions (f : T → T') : List (FailedProduction L T) → List (FailedProduction L T')
  | [] => []
  | p :: ps => renFailedProduction f p :: renFailedProductions f ps
end

/-- The same in what a solver returns. -/
def renFix (f : T → T') (r : FixResult L T) : FixResult L T' :=
  ⟨r.finalTokenPosition, renFixedProduction f r.production⟩

/-- The same in the result of `parse_from_tokens`. -/
def renResult (f : T → T') : ParseResult L T → ParseResult L T'
  | .ok t => .ok ⟨renNode f t.root⟩
  | .err e => .err (renFailedSymbol f e)
  | .fix s => .fix (renFixedSymbol f s)

/-- The same in the outcome of a call of a solver. -/
def renAnswer {σ : Type} (f : T → T') :
    Out (Option (FixResult L T) × σ) → Out (Option (FixResult L T') × σ)
  | .ok (r, s) => .ok (r.map (renFix f), s)
  | .panic e => .panic e
  | .fuel => .fuel

/-- A solver for the renamed symbols that does what `solver` does: asked about renamed tokens and failed
productions it gives the renamed answer, and leaves the same state. -/
structure SolverRenamed {σ : Type} (f : T → T') (solver : Solver σ L T) (solver' : Solver σ L T') :
    Prop where
  one : ∀ tokens pos fp s,
    solver'.fixFailedProduction (tokens.map (renToken f)) pos (renFailedProduction f fp) s =
      renAnswer f (solver.fixFailedProduction tokens pos fp s)
  many : ∀ tokens pos fps s,
    solver'.fixFailedProductions (tokens.map (renToken f)) pos (fps.map (renFailedProduction f)) s =
      renAnswer f (solver.fixFailedProductions tokens pos fps s)

/-- The same for parsers that may have no solver. -/
inductive SolversRenamed {σ : Type} (f : T → T') :
    Option (Solver σ L T) → Option (Solver σ L T') → Prop where
  | none : SolversRenamed f none none
  | some (solver : Solver σ L T) (solver' : Solver σ L T') (h : SolverRenamed f solver solver') :
      SolversRenamed f (some solver) (some solver')

end Verif.Spec
