import Verif.Spec.Observe

/-!
# Specification: solvers that answer alike, and the history of a parser
-/

namespace Verif.Spec

variable {σ τ L T : Type} [DecidableEq T]

/-- Called in related states, both answer the same and the states are related again, or both panic with the
same message, or neither returns. -/
def CallsAlike {α : Type} (R : σ → τ → Prop) (call : M σ α) (call' : M τ α) : Prop :=
  ∀ s t, R s t → match call s with
    | .ok (a, s1) => ∃ t1, call' t = .ok (a, t1) ∧ R s1 t1
    | .panic e => call' t = .panic e
    | .fuel => call' t = .fuel

/-- Both functions of the solvers answer alike, whatever they are asked. -/
structure AnswersAlike (R : σ → τ → Prop) (sv : Solver σ L T) (sv' : Solver τ L T) : Prop where
  one : ∀ tokens pos f, CallsAlike R (sv.fixFailedProduction tokens pos f) (sv'.fixFailedProduction tokens pos f)
  many : ∀ tokens pos fs,
    CallsAlike R (sv.fixFailedProductions tokens pos fs) (sv'.fixFailedProductions tokens pos fs)

/-- What the solver answers does not depend on its state (which it may change all the same). -/
def Stateless (sv : Solver σ L T) : Prop := AnswersAlike (fun _ _ => True) sv sv

/-- A parser is used again and again: the state of the solver at first, the inputs, what came out (`none` for a
panic that was caught), the state of the solver at last. After a panic the solver may be in any state. -/
inductive Session (p : Parser σ L T) : σ → List (List (Token L T)) → List (Option (ParseResult L T)) → σ → Prop
    where
  | nil (s : σ) : Session p s [] [] s
  | returned {s s1 s' : σ} {tokens : List (Token L T)} {r : ParseResult L T}
      {inputs : List (List (Token L T))} {out : List (Option (ParseResult L T))} :
      Parses p tokens s r s1 → Session p s1 inputs out s' → Session p s (tokens :: inputs) (some r :: out) s'
  | caught {s s1 s' : σ} {tokens : List (Token L T)}
      {inputs : List (List (Token L T))} {out : List (Option (ParseResult L T))} :
      ParsePanics p tokens s → Session p s1 inputs out s' → Session p s (tokens :: inputs) (none :: out) s'

end Verif.Spec
