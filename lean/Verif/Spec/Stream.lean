import Verif.Spec.EndMarker
import Verif.Spec.Observe

/-!
# Specification: reading one sentence after the other
-/

namespace Verif.Spec

variable {σ L T : Type} [DecidableEq T]

/-- From `tokens` one tree after the other is read: each time the tokens that are the leaves of the tree are
removed, and what is left is parsed. `trees` are the trees read, `rest` are the tokens left. -/
inductive Reads (eps : T) (p : Parser σ L T) (s : σ) :
    List (Token L T) → List (Tree L T) → List (Token L T) → Prop where
  | stop (tokens : List (Token L T)) : Reads eps p s tokens [] tokens
  | next {tokens : List (Token L T)} {tree : Tree L T} {trees : List (Tree L T)} {rest : List (Token L T)} :
      Parses p tokens s (.ok tree) s → Reads eps p s (tokens.drop (leaves eps tree.root).length) trees rest →
      Reads eps p s tokens (tree :: trees) rest

end Verif.Spec
