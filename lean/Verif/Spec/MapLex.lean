import Verif.Model.Parser

/-!
# Specification: replacing the lexemes in tokens and results
-/

namespace Verif.Spec

variable {L L' T : Type}

/-- Replace the lexeme of a token, if it has one, by the given function, which may also remove it. -/
def mapToken (f : L → Option L') (t : Token L T) : Token L' T := ⟨t.lex.bind f, t.tType⟩

mutual
/-- Replace all lexemes in a tree. -/
def mapNode (f : L → Option L') : Node L T → Node L' T
  | .mk cs t => .mk (mapNodes f cs) (mapToken f t)
/-- The same in a list of trees. -/
def mapNodes (f : L → Option L') : List (Node L T) → List (Node L' T)
  | [] => []
  | n :: ns => mapNode f n :: mapNodes f ns
end

/-- The same in a gap. -/
def mapGap (f : L → Option L') (g : FixGap L T) : FixGap L' T := ⟨g.skippedTokens.filterMap f, g.skippedSymbols⟩

mutual
/-- The same in a fixed symbol. -/
def mapFixedSymbol (f : L → Option L') : FixedSymbol L T → FixedSymbol L' T
  | .mk p x => .mk (mapFixedProduction f p) x
/-- The same in a fixed production. -/
def mapFixedProduction (f : L → Option L') : FixedProduction L T → FixedProduction L' T
  | .mk parts => .mk (mapFixedParts f parts)
/-- The same in a part of a fixed production. -/
def mapFixedPart (f : L → Option L') : FixedProductionPart L T → FixedProductionPart L' T
  | .ok n => .ok (mapNode f n)
  | .fixed s => .fixed (mapFixedSymbol f s)
  | .gap g => .gap (mapGap f g)
/-- The same in a list of parts. -/
def mapFixedParts (f : L → Option L') : List (FixedProductionPart L T) → List (FixedProductionPart L' T)
  | [] => []
  | p :: ps => mapFixedPart f p :: mapFixedParts f ps
end

/-- The same in a parsed symbol of a failed production. -/
def mapParsed (f : L → Option L') : ProductionParsedSymbol L T → ProductionParsedSymbol L' T
  | .ok n => .ok (mapNode f n)
  | .fix s => .fix (mapFixedSymbol f s)

mutual
/-- The same in a failed symbol. -/
def mapFailedSymbol (f : L → Option L') : FailedSymbol L T → FailedSymbol L' T
  | .mk fps x => .mk (mapFailedProductions f fps) x
/-- The same in a failed production. -/
def mapFailedProduction (f : L → Option L') : FailedProduction L T → FailedProduction L' T
  | .mk fs parsed pending => .mk (mapFailedSymbol f fs) (parsed.map (mapParsed f)) pending
/-- The same in a list of failed productions. -/
def mapFailedProductions (f : L → Option L') : List (FailedProduction L T) → List (FailedProduction L' T)
  | [] => []
  | p :: ps => mapFailedProduction f p :: mapFailedProductions f ps
end

/-- The same in what a solver returns. -/
def mapFix (f : L → Option L') (r : FixResult L T) : FixResult L' T :=
  ⟨r.finalTokenPosition, mapFixedProduction f r.production⟩

/-- The same in the result of `parse_from_tokens`. -/
def mapResult (f : L → Option L') : ParseResult L T → ParseResult L' T
  | .ok t => .ok ⟨mapNode f t.root⟩
  | .err e => .err (mapFailedSymbol f e)
  | .fix s => .fix (mapFixedSymbol f s)

/-- The result without its lexemes. -/
def shape (r : ParseResult L T) : ParseResult Unit T := mapResult (fun _ => none) r

end Verif.Spec
