import Verif.Model.Iter

/-!
# Specification: what a token iterator yields
-/

namespace Verif.Spec

variable {ι L T : Type}

/-- From state `i` on the iterator yields exactly these tokens and then `None`. -/
inductive Yields (it : TokenIter ι L T) : ι → List (Token L T) → Prop where
  | done (i i' : ι) : it.next i = .ok (none, i') → Yields it i []
  | more (i i' : ι) (t : Token L T) (ts : List (Token L T)) :
      it.next i = .ok (some t, i') → Yields it i' ts → Yields it i (t :: ts)

/-- From state `i` on the iterator yields some tokens and then panics. -/
inductive IterPanics (it : TokenIter ι L T) : ι → Prop where
  | now (i : ι) (e : Panic) : it.next i = .panic e → IterPanics it i
  | later (i i' : ι) (t : Token L T) :
      it.next i = .ok (some t, i') → IterPanics it i' → IterPanics it i

/-- From state `i` on the iterator never comes to an end: it yields tokens for ever, or some call of
`next` does not return. -/
def NeverEnds (it : TokenIter ι L T) (i : ι) : Prop := ¬ IterPanics it i ∧ ∀ ts, ¬ Yields it i ts

variable {σ : Type} [DecidableEq T]

/-- `p.parse_from_tokens(it)`, with the iterator in state `i` and the solver in state `s`, returns `r`
and leaves the solver in state `s'`. -/
def IterParses (p : Parser σ L T) (it : TokenIter ι L T) (i : ι) (s : σ) (r : ParseResult L T) (s' : σ) :
    Prop := Returns (fun n => p.parseFromIter it n i s) (r, s')

/-- `p.parse_from_tokens(it)` panics. -/
def IterParsePanics (p : Parser σ L T) (it : TokenIter ι L T) (i : ι) (s : σ) : Prop :=
  Panics (fun n => p.parseFromIter it n i s)

/-- `p.parse_from_tokens(it)` never returns. -/
def IterParseDiverges (p : Parser σ L T) (it : TokenIter ι L T) (i : ι) (s : σ) : Prop :=
  Diverges (fun n => p.parseFromIter it n i s)

end Verif.Spec
