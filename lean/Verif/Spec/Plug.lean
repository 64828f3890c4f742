import Verif.Spec.Unite
import Verif.Spec.ParseTree

/-!
# Specification: a grammar in place of a terminal of another one
-/

namespace Verif.Spec

variable {L T : Type} [DecidableEq T]

/-- `b` is a non-terminal of `qs`; no non-terminal of `ps` occurs in `qs`; and `b` is the only non-terminal of `qs`
that can occur in `ps`, where it is a terminal. -/
structure Plugs (b : T) (ps qs : List (Production T)) : Prop where
  nt : IsNonTerminal qs b
  left : ∀ p ∈ ps, ∀ q ∈ qs, p.input ≠ q.input ∧ p.input ∉ q.output
  right : ∀ q ∈ qs, q.input = b ∨ ∀ p ∈ ps, q.input ∉ p.output

/-- `w` is `u` with every `b` replaced by a word of `S`. -/
inductive Replaced (b : T) (S : List T → Prop) : List T → List T → Prop where
  | nil : Replaced b S [] []
  | keep (c : T) (u w : List T) : c ≠ b → Replaced b S u w → Replaced b S (c :: u) (c :: w)
  | put (v u w : List T) : S v → Replaced b S u w → Replaced b S (b :: u) (v ++ w)

mutual
/-- The second tree is the first one with a tree of `S` in place of every leaf `b`. -/
inductive Grafted (b : T) (S : Node L T → Prop) : Node L T → Node L T → Prop where
  | put (t : Token L T) (n : Node L T) : t.tType = b → S n → Grafted b S (.mk [] t) n
  | node (cs ds : List (Node L T)) (t : Token L T) : t.tType ≠ b → GraftedAll b S cs ds →
      Grafted b S (.mk cs t) (.mk ds t)
/-- The same for lists of trees. -/
inductive GraftedAll (b : T) (S : Node L T → Prop) : List (Node L T) → List (Node L T) → Prop where
  | nil : GraftedAll b S [] []
  | cons (c d : Node L T) (cs ds : List (Node L T)) : Grafted b S c d → GraftedAll b S cs ds →
      GraftedAll b S (c :: cs) (d :: ds)
end

end Verif.Spec
