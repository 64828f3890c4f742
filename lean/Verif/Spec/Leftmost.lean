import Verif.Spec.Derivation

/-!
# Specification: leftmost derivations that read an input

`Run w st w' st'`: a machine that still has to derive the symbols `st` in front of the input `w` can come to
have to derive `st'` in front of the input `w'`. It reads a terminal that is next on both sides, skips `eps`,
and expands a non-terminal by any of its productions. It expands only in front of a symbol, never at the
end of the input. It does not look at the next symbol to choose a production: it guesses.

`Run w [init] [] st` is a leftmost derivation of the form `w st` from the initial symbol in which no
non-terminal was expanded after all of `w` had been derived.
-/

namespace Verif.Spec

variable {T : Type}

/-- The machine gets from `w`, `st` to `w'`, `st'`. -/
inductive Run (eps : T) (ps : List (Production T)) :
    List T → List T → List T → List T → Prop where
  | refl (w st : List T) : Run eps ps w st w st
  | skip (w st w' st' : List T) : Run eps ps w st w' st' → Run eps ps w (eps :: st) w' st'
  | read (a : T) (w st w' st' : List T) : ¬ IsNonTerminal ps a → a ≠ eps →
      Run eps ps w st w' st' → Run eps ps (a :: w) (a :: st) w' st'
  | expand (q : Production T) (w st w' st' : List T) : q ∈ ps → w ≠ [] →
      Run eps ps w (q.output ++ st) w' st' → Run eps ps w (q.input :: st) w' st'

/-- All of the input can be read, with nothing left to derive. -/
def ReadsAll (eps init : T) (ps : List (Production T)) (w : List T) : Prop := Run eps ps w [init] [] []

/-- All of the input can be read, with a non-terminal to derive next. -/
def StopsBeforeNonTerminal (eps init : T) (ps : List (Production T)) (w : List T) : Prop :=
  ∃ x st, IsNonTerminal ps x ∧ Run eps ps w [init] [] (x :: st)

/-- All of the input can be read, with a terminal to read next. -/
def StopsBeforeTerminal (eps init : T) (ps : List (Production T)) (w : List T) : Prop :=
  ∃ x st, ¬ IsNonTerminal ps x ∧ x ≠ eps ∧ Run eps ps w [init] [] (x :: st)

end Verif.Spec
