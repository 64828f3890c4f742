import Verif.Spec.OrderedChoice

/-!
# Specification: which searches a search leads to

`Tries xs pos o q`: searching the symbols `xs` from position `pos` on tries the candidate `o` of one of the
non-terminals in `xs` at position `q`, that is, it leads to a search of the symbols `o` from `q` on.
-/

namespace Verif.Spec

variable {L T : Type}

/-- The candidate `o` of a non-terminal at `pos` is passed over: its symbols are not found, or they are and
then the symbols `xs` that follow the non-terminal are not. -/
def PassedOver (eps : T) (ps : List (Production T)) (cand : T → T → List (List T))
    (tokens : List (Token L T)) (xs : List T) (pos : Nat) (o : List T) : Prop :=
  Seq eps ps cand tokens o pos .failed ∨
    ∃ ns q, Seq eps ps cand tokens o pos (.found (ns, q)) ∧ Seq eps ps cand tokens xs q .failed

/-- The search of `xs` from `pos` on leads to a search of the candidate `o` from `q` on. -/
inductive Tries (eps : T) (ps : List (Production T)) (cand : T → T → List (List T))
    (tokens : List (Token L T)) : List T → Nat → List T → Nat → Prop where
  | eps (xs : List T) (pos : Nat) (o : List T) (q : Nat) :
      Tries eps ps cand tokens xs pos o q → Tries eps ps cand tokens (eps :: xs) pos o q
  | terminal (xs : List T) (pos : Nat) (t : Token L T) (o : List T) (q : Nat) :
      ¬ IsNonTerminal ps t.tType → t.tType ≠ eps → tokens[pos]? = some t →
      Tries eps ps cand tokens xs (pos + 1) o q → Tries eps ps cand tokens (t.tType :: xs) pos o q
  /-- the first symbol is a non-terminal and all of its candidates before `o` are passed over -/
  | candidate (x : T) (xs : List T) (pos : Nat) (t : Token L T) (u : List (List T)) (o : List T)
      (v : List (List T)) : IsNonTerminal ps x → tokens[pos]? = some t → cand x t.tType = u ++ o :: v →
      (∀ o' ∈ u, PassedOver eps ps cand tokens xs pos o') → Tries eps ps cand tokens (x :: xs) pos o pos
  /-- the symbols of such a candidate `o'` are found, and what follows is searched behind them -/
  | behind (x : T) (xs : List T) (pos : Nat) (t : Token L T) (u : List (List T)) (o' : List T)
      (v : List (List T)) (ns : List (Node L T)) (k : Nat) (o : List T) (q : Nat) : IsNonTerminal ps x →
      tokens[pos]? = some t → cand x t.tType = u ++ o' :: v →
      (∀ o'' ∈ u, PassedOver eps ps cand tokens xs pos o'') →
      Seq eps ps cand tokens o' pos (.found (ns, k)) → Tries eps ps cand tokens xs k o q →
      Tries eps ps cand tokens (x :: xs) pos o q

/-- One search leads to another, possibly by way of further searches (at least one step). -/
inductive LeadsTo (eps : T) (ps : List (Production T)) (cand : T → T → List (List T))
    (tokens : List (Token L T)) : List T → Nat → List T → Nat → Prop where
  | tries (xs : List T) (pos : Nat) (o : List T) (q : Nat) :
      Tries eps ps cand tokens xs pos o q → LeadsTo eps ps cand tokens xs pos o q
  | step (xs : List T) (pos : Nat) (o : List T) (q : Nat) (o' : List T) (q' : Nat) :
      LeadsTo eps ps cand tokens xs pos o q → Tries eps ps cand tokens o q o' q' →
      LeadsTo eps ps cand tokens xs pos o' q'

end Verif.Spec
