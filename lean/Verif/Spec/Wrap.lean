import Verif.Spec.EndMarker
import Mathlib.Data.List.Dedup

/-!
# Specification: LL(1) as in the textbook, and a way to rewrite a grammar

A grammar is rewritten by giving every production a non-terminal of its own, replacing every second symbol
of an output by a copy, and adding a new initial symbol with an end marker.
-/

namespace Verif.Spec

variable {L T : Type} [DecidableEq T]

/-- The conditions on two productions `A → α` and `A → β` in the textbook (Aho, Lam, Sethi, Ullman, 4.4.3).
`follow A a` stands for `a ∈ FOLLOW(A)`. -/
structure LL1Pair (eps : T) (ps : List (Production T)) (follow : T → T → Prop) (p q : Production T) : Prop where
  /-- 1. For no terminal do both derive strings beginning with it. -/
  first : ∀ a, ¬ IsNonTerminal ps a →
    ¬ ((∃ v, Derives eps ps (rhs eps p) (a :: v)) ∧ ∃ v, Derives eps ps (rhs eps q) (a :: v))
  /-- 2. At most one of them derives the empty string. -/
  empty : ¬ (Derives eps ps (rhs eps p) [] ∧ Derives eps ps (rhs eps q) [])
  /-- 3. If `β` derives the empty string, `α` derives no string beginning with a terminal in FOLLOW(`A`), -/
  beta : ∀ a, follow p.input a → Derives eps ps (rhs eps q) [] → ¬ ∃ v, Derives eps ps (rhs eps p) (a :: v)
  /-- and likewise if `α` derives the empty string. -/
  alpha : ∀ a, follow p.input a → Derives eps ps (rhs eps p) [] → ¬ ∃ v, Derives eps ps (rhs eps q) (a :: v)

/-- LL(1) as in the textbook: the conditions for any two productions of a symbol (listed at different places),
with FOLLOW as in the textbook. -/
def TextbookLL1 (eps init : T) (ps : List (Production T)) : Prop :=
  ps.Pairwise fun p q => p.input = q.input → LL1Pair eps ps (CanFollowFrom eps ps init) p q

/-- LL(1) from every non-terminal: the same with what can follow in a form derived from any non-terminal. -/
def LL1FromAll (eps : T) (ps : List (Production T)) : Prop :=
  ps.Pairwise fun p q => p.input = q.input → LL1Pair eps ps (CanFollow eps ps) p q

/-- The symbols of the rewritten grammar. -/
inductive Wrapped (T : Type) where
  /-- a symbol of the grammar -/
  | old (x : T)
  /-- the new initial symbol -/
  | start
  /-- the end marker -/
  | stop
  /-- the non-terminal of a production -/
  | alt (p : Production T)
  /-- the copy of a symbol -/
  | copy (x : T)
  deriving DecidableEq

open Wrapped

/-- Every second symbol is replaced by its copy (if `second`, beginning with the first one). -/
def alternate (second : Bool) : List T → List (Wrapped T)
  | [] => []
  | x :: xs => (if second then copy x else old x) :: alternate (!second) xs

/-- The rewritten grammar: `start → init stop`; `A → alt p` and `alt p → α'` for each production `p = A → α`,
where `α'` is `α` with every second symbol replaced by its copy; and `copy x → x`. -/
def wrapped (eps init : T) (ps : List (Production T)) : List (Production (Wrapped T)) :=
  ⟨start, [old init, stop]⟩ ::
    (ps.map (fun p => ⟨old p.input, [alt p]⟩) ++
      (ps.dedup.map (fun p => ⟨alt p, alternate false p.output⟩) ++
        ((ps.flatMap (·.output)).dedup.filter (· ≠ eps)).map (fun x => ⟨copy x, [old x]⟩)))

/-- The tokens for the rewritten grammar: those of the input, and an end marker. -/
def wrapTokens (tokens : List (Token L T)) : List (Token L (Wrapped T)) :=
  tokens.map (fun t => ⟨t.lex, old t.tType⟩) ++ [⟨none, stop⟩]

mutual
/-- A tree of the rewritten grammar without the new nodes: their children take their place. -/
def unwrap : Node L (Wrapped T) → List (Node L T)
  | .mk cs ⟨l, old x⟩ => [.mk (unwrapList cs) ⟨l, x⟩]
  | .mk cs _ => unwrapList cs
/-- The same for a list of trees. -/
def unwrapList : List (Node L (Wrapped T)) → List (Node L T)
  | [] => []
  | n :: ns => unwrap n ++ unwrapList ns
end

end Verif.Spec
