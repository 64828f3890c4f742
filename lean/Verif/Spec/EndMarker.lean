import Verif.Spec.ParseTree

/-!
# Specification: end markers and sentences
-/

namespace Verif.Spec

variable {L T : Type} [DecidableEq T]

/-- The grammar is end-marked by the terminal `e`: the initial symbol occurs in no output, each of its
productions ends with `e`, and `e` occurs nowhere else. -/
structure EndMarked (eps init e : T) (ps : List (Production T)) : Prop where
  ne_eps : e ≠ eps
  terminal : ¬ IsNonTerminal ps e
  initial_once : ∀ p ∈ ps, init ∉ p.output
  initial_ends : ∀ p ∈ ps, p.input = init → ∃ u, p.output = u ++ [e] ∧ e ∉ u
  only_there : ∀ p ∈ ps, p.input ≠ init → e ∉ p.output

/-- The last token is of type `e` and no other one is. -/
def EndsWith (e : T) (tokens : List (Token L T)) : Prop :=
  ∃ ts t, tokens = ts ++ [t] ∧ t.tType = e ∧ ∀ u ∈ ts, u.tType ≠ e

/-- The word `w` is a sentence of the grammar: it is derived from `init` and made of terminals. -/
def Sentence (eps init : T) (ps : List (Production T)) (w : List T) : Prop :=
  Derives eps ps [init] w ∧ ∀ a ∈ w, IsTerminal ps a ∧ a ≠ eps

/-- The tree has, at its right end, a non-terminal that covers no token. -/
inductive EndsEmpty (eps : T) (ps : List (Production T)) : Node L T → Prop where
  | here (n : Node L T) : IsNonTerminal ps n.token.tType → leaves eps n = [] → EndsEmpty eps ps n
  | last (a : List (Node L T)) (c : Node L T) (b : List (Node L T)) (t : Token L T) :
      leavesList eps b = [] → EndsEmpty eps ps c → EndsEmpty eps ps (.mk (a ++ c :: b) t)

end Verif.Spec
