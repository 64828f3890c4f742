import Verif.Model.Token
import Verif.Spec.Derivation

/-!
# Specification: ordered choice with one-level backtracking

What the parser computes without a solver, as a recursive search with no stack and no loop. `cand x a`
stands for the candidate outputs of the non-terminal `x`, in order, when the next token has type `a`.

* A non-terminal (`Choice`) tries its candidates in order; the first one whose symbols can be found
  gives its result. The candidates behind it are kept for a retry.
* A sequence of symbols (`Seq`) is searched from left to right. If the search for what stands behind
  a non-terminal fails, the non-terminal is retried with the candidates kept (`Retry`). The choices
  made inside of it are not reconsidered.
* A search runs out of input when a non-terminal is to be derived behind the last token.
-/

namespace Verif.Spec

/-- The outcome of a search. -/
inductive Search (α : Type) where
  | found (a : α)
  | failed
  | ranOut

/-- Put a node in front of the nodes found. -/
def Search.cons {L T : Type} (n : Node L T) :
    Search (List (Node L T) × Nat) → Search (List (Node L T) × Nat)
  | .found (ns, q) => .found (n :: ns, q)
  | .failed => .failed
  | .ranOut => .ranOut

variable {L T : Type}

mutual
/-- `Choice x pos outs r`: deriving the non-terminal `x` at position `pos` with the candidates `outs`
gives `r`. What is found is a node, the position behind it and the candidates not tried. -/
inductive Choice (eps : T) (ps : List (Production T)) (cand : T → T → List (List T))
    (tokens : List (Token L T)) :
    T → Nat → List (List T) → Search (Node L T × Nat × List (List T)) → Prop where
  | none (x : T) (pos : Nat) : Choice eps ps cand tokens x pos [] .failed
  | here (x : T) (pos : Nat) (out : List T) (outs : List (List T)) (ns : List (Node L T)) (q : Nat) :
      Seq eps ps cand tokens out pos (.found (ns, q)) →
      Choice eps ps cand tokens x pos (out :: outs) (.found (.mk ns ⟨none, x⟩, q, outs))
  | next (x : T) (pos : Nat) (out : List T) (outs : List (List T))
      (r : Search (Node L T × Nat × List (List T))) :
      Seq eps ps cand tokens out pos .failed → Choice eps ps cand tokens x pos outs r →
      Choice eps ps cand tokens x pos (out :: outs) r
  | ranOut (x : T) (pos : Nat) (out : List T) (outs : List (List T)) :
      Seq eps ps cand tokens out pos .ranOut →
      Choice eps ps cand tokens x pos (out :: outs) .ranOut
/-- `Seq xs pos r`: searching the symbols `xs` from position `pos` on gives `r`. What is found is
one node per symbol and the position behind the last one. -/
inductive Seq (eps : T) (ps : List (Production T)) (cand : T → T → List (List T))
    (tokens : List (Token L T)) : List T → Nat → Search (List (Node L T) × Nat) → Prop where
  | nil (pos : Nat) : Seq eps ps cand tokens [] pos (.found ([], pos))
  | eps (xs : List T) (pos : Nat) (r : Search (List (Node L T) × Nat)) :
      Seq eps ps cand tokens xs pos r →
      Seq eps ps cand tokens (eps :: xs) pos (r.cons (.mk [] ⟨none, eps⟩))
  | terminal (xs : List T) (pos : Nat) (t : Token L T) (r : Search (List (Node L T) × Nat)) :
      ¬ IsNonTerminal ps t.tType → t.tType ≠ eps → tokens[pos]? = some t →
      Seq eps ps cand tokens xs (pos + 1) r →
      Seq eps ps cand tokens (t.tType :: xs) pos (r.cons (.mk [] t))
  | mismatch (x : T) (xs : List T) (pos : Nat) : ¬ IsNonTerminal ps x → x ≠ eps →
      (∀ t, tokens[pos]? = some t → t.tType ≠ x) →
      Seq eps ps cand tokens (x :: xs) pos .failed
  | nonTerminal (x : T) (xs : List T) (pos : Nat) (t : Token L T)
      (r : Search (List (Node L T) × Nat)) : IsNonTerminal ps x → tokens[pos]? = some t →
      Retry eps ps cand tokens x xs pos (cand x t.tType) r → Seq eps ps cand tokens (x :: xs) pos r
  | ranOut (x : T) (xs : List T) (pos : Nat) : IsNonTerminal ps x → tokens[pos]? = none →
      Seq eps ps cand tokens (x :: xs) pos .ranOut
/-- `Retry x xs pos outs r`: searching the non-terminal `x` with the candidates `outs` followed by
the symbols `xs` gives `r`. -/
inductive Retry (eps : T) (ps : List (Production T)) (cand : T → T → List (List T))
    (tokens : List (Token L T)) :
    T → List T → Nat → List (List T) → Search (List (Node L T) × Nat) → Prop where
  | failed (x : T) (xs : List T) (pos : Nat) (outs : List (List T)) :
      Choice eps ps cand tokens x pos outs .failed → Retry eps ps cand tokens x xs pos outs .failed
  | ranOut (x : T) (xs : List T) (pos : Nat) (outs : List (List T)) :
      Choice eps ps cand tokens x pos outs .ranOut → Retry eps ps cand tokens x xs pos outs .ranOut
  | found (x : T) (xs : List T) (pos : Nat) (outs rest : List (List T)) (n : Node L T) (q q' : Nat)
      (ns : List (Node L T)) : Choice eps ps cand tokens x pos outs (.found (n, q, rest)) →
      Seq eps ps cand tokens xs q (.found (ns, q')) →
      Retry eps ps cand tokens x xs pos outs (.found (n :: ns, q'))
  | again (x : T) (xs : List T) (pos : Nat) (outs rest : List (List T)) (n : Node L T) (q : Nat)
      (r : Search (List (Node L T) × Nat)) :
      Choice eps ps cand tokens x pos outs (.found (n, q, rest)) →
      Seq eps ps cand tokens xs q .failed → Retry eps ps cand tokens x xs pos rest r →
      Retry eps ps cand tokens x xs pos outs r
  | ranOutAfter (x : T) (xs : List T) (pos : Nat) (outs rest : List (List T)) (n : Node L T)
      (q : Nat) : Choice eps ps cand tokens x pos outs (.found (n, q, rest)) →
      Seq eps ps cand tokens xs q .ranOut → Retry eps ps cand tokens x xs pos outs .ranOut
end

end Verif.Spec
