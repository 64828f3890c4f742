import Verif.Model.Parser

/-!
# Model of token iterators

`parse_from_tokens` takes any `Iterator` over tokens. `Model/Parser.lean` models it from the vector of
tokens on; this file models the reading of the iterator before.
-/

namespace Verif

variable {ι σ L T : Type} [DecidableEq T]

/-- An `Iterator<Item = Token<TLex, TSyntax>>` with states `ι`: a call of `next` returns a token or
`None` and changes the state; it may panic, or not return. The parameter of `parse_from_tokens`,
recursive_descent_parser.rs:120-122. -/
structure TokenIter (ι L T : Type) where
  next : ι → Out (Option (Token L T) × ι)

namespace Parser

/-- The loop of `Iterator::for_each` in `iterator_to_vec`, recursive_descent_parser.rs:593-599: `next` is
called until it returns `None`; each token is pushed to `vector`. -/
def forEachPush (it : TokenIter ι L T) : Nat → ι → List (Token L T) → Out (List (Token L T))
  | 0, _, _ => .fuel
  | fuel + 1, i, vector =>
    match it.next i with
    | .ok (some t, i') => forEachPush it fuel i' (vector ++ [t])
    | .ok (none, _) => .ok vector
    | .panic e => .panic e
    | .fuel => .fuel

/-- `iterator_to_vec`, recursive_descent_parser.rs:593-599. -/
def iteratorToVec (it : TokenIter ι L T) (fuel : Nat) (i : ι) : Out (List (Token L T)) :=
  forEachPush it fuel i []

/-- `parse_from_tokens`, recursive_descent_parser.rs:120-148, on an iterator in state `i`. -/
def parseFromIter (p : Parser σ L T) (it : TokenIter ι L T) (fuel : Nat) (i : ι) :
    M σ (ParseResult L T) := fun s =>
  match iteratorToVec it fuel i with
  | .ok tokens => parseFromTokens p fuel tokens s
  | .panic e => .panic e
  | .fuel => .fuel

end Parser

end Verif
