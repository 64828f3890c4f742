import Verif.Spec.Recovery
import Verif.Spec.EndMarker
import Verif.Spec.Observe

/-!
# Specification: two grammars in one
-/

namespace Verif.Spec

variable {σ L T : Type} [DecidableEq T]

/-- `a` is a non-terminal of `ps`, `b` one of `qs`; no non-terminal of one grammar occurs in the other one;
and `start` is a new symbol: it is not `eps` and occurs in neither. -/
structure Apart (eps start a b : T) (ps qs : List (Production T)) : Prop where
  left : IsNonTerminal ps a
  right : IsNonTerminal qs b
  apart : ∀ p ∈ ps, ∀ q ∈ qs, p.input ≠ q.input ∧ p.input ∉ q.output ∧ q.input ∉ p.output
  start_ne_eps : start ≠ eps
  new_left : ∀ p ∈ ps, p.input ≠ start ∧ start ∉ p.output
  new_right : ∀ q ∈ qs, q.input ≠ start ∧ start ∉ q.output

/-- The two grammars with `start → a` and `start → b` in front. -/
def unite (start a b : T) (ps qs : List (Production T)) : List (Production T) :=
  ⟨start, [a]⟩ :: ⟨start, [b]⟩ :: (ps ++ qs)

/-- A token of type `a` selects `x`: it is in FIRST of `x`, or `x` can be empty and it is in FOLLOW of
`x`. -/
def Selects (eps : T) (ff : FirstFollow T) (x a : T) : Prop :=
  ∃ fi fo, ff.getFirstSymbols x = some fi ∧ ff.getFollowSymbols x = some fo ∧
    ((a ∈ fi ∧ a ≠ eps) ∨ (eps ∈ fi ∧ a ∈ fo))

/-- The tree with `t` under a node `start`. -/
def under (start : T) (t : Tree L T) : Tree L T := ⟨.mk [t.root] ⟨none, start⟩⟩

/-- What `parse_from_tokens` returns when the initial symbol `x` has failed with the reports `fps`, in solver
state `s1`, and the solver is asked: its fix, if it has one; the error, if it has none; a panic, if it
panics; and nothing if it does not return. -/
def AfterFailure (p : Parser σ L T) (solver : Option (Solver σ L T)) (tokens : List (Token L T)) (s : σ)
    (x : T) (fps : List (FailedProduction L T)) (s1 : σ) : Prop :=
  match Recovery.answer solver tokens 0 true fps s1 with
  | .ok (some r, s2) => Parses p tokens s (.fix (.mk r.production x)) s2
  | .ok (none, s2) => Parses p tokens s (.err (.mk fps x)) s2
  | .panic _ => ParsePanics p tokens s
  | .fuel => ParseDiverges p tokens s

/-- On `tokens`, in solver state `s`, the parser `p` with initial symbol `start` does what `p'` does and puts
`start` on top of its result. If `p'` returns an error the solver is asked once more, for `start`. -/
structure DoesUnder (start : T) (p : Parser σ L T) (solver : Option (Solver σ L T)) (p' : Parser σ L T)
    (tokens : List (Token L T)) (s : σ) : Prop where
  ok : ∀ tree s', Parses p' tokens s (.ok tree) s' → Parses p tokens s (.ok (under start tree)) s'
  fix : ∀ fs s', Parses p' tokens s (.fix fs) s' →
    Parses p tokens s (.fix (.mk (.mk [.fixed fs]) start)) s'
  err : ∀ f s', Parses p' tokens s (.err f) s' → AfterFailure p solver tokens s start [.mk f [] []] s'
  panic : ParsePanics p' tokens s → ParsePanics p tokens s
  diverge : ParseDiverges p' tokens s → ParseDiverges p tokens s

/-- On `tokens`, in solver state `s`, the parser `p` with initial symbol `start` does what `pa` does, or, if
`pa` returns an error, what `pb` does, and puts `start` on top of the tree. If both return an error the
solver is asked, for `start`. The two parsers have no solver. -/
structure TriesBoth (start : T) (p : Parser σ L T) (solver : Option (Solver σ L T)) (pa pb : Parser σ L T)
    (tokens : List (Token L T)) (s : σ) : Prop where
  first_ok : ∀ tree, Parses pa tokens s (.ok tree) s → Parses p tokens s (.ok (under start tree)) s
  first_panics : ParsePanics pa tokens s → ParsePanics p tokens s
  first_diverges : ParseDiverges pa tokens s → ParseDiverges p tokens s
  second_ok : ∀ f tree, Parses pa tokens s (.err f) s → Parses pb tokens s (.ok tree) s →
    Parses p tokens s (.ok (under start tree)) s
  second_panics : ∀ f, Parses pa tokens s (.err f) s → ParsePanics pb tokens s → ParsePanics p tokens s
  second_diverges : ∀ f, Parses pa tokens s (.err f) s → ParseDiverges pb tokens s →
    ParseDiverges p tokens s
  both_fail : ∀ f f', Parses pa tokens s (.err f) s → Parses pb tokens s (.err f') s →
    AfterFailure p solver tokens s start [.mk f [] [], .mk f' [] []] s

end Verif.Spec
