import Verif.Model.Parser
import Verif.Spec.Derivation

/-!
# Specification: ordered choice with failure reports and a solver

What the parser computes, with or without a solver, as a recursive search with no stack and no loop.
It refines Spec.OrderedChoice: a failed search says how it failed, the solver is asked on the single
path and its state is threaded through the search. `cand x a` stands for the candidate outputs of the
non-terminal `x`, in order, when the next token has type `a`.

* `Choice`: a non-terminal tries its candidates in order (`Alts`). If all of them fail, the solver may
  be asked: it is if the non-terminal is on the single path (`single`). Its answer is the result; if it
  has none the non-terminal fails, with one failed production per candidate tried.
* The candidates are on the single path iff the non-terminal is and it has exactly one candidate.
* `Seq`: the symbols of a candidate are searched from left to right.
* `Resume`: if the search for what stands behind a derived non-terminal fails, the non-terminal is
  retried with the candidates it has not tried. A fix found by that retry is thrown away, as is the
  report of its failure. A non-terminal that was fixed is not retried.
* A search panics when a non-terminal is to be derived behind the last token, or the solver panics.
-/

namespace Verif.Spec.Recovery

variable {σ L T : Type}

/-- A symbol of a production that the search is through with: a node, or a fixed non-terminal. -/
abbrev Part (L T : Type) := ProductionParsedSymbol L T

/-- The outcome of a search, with the solver state behind it. -/
inductive Outcome (σ α β : Type) where
  | found (a : α) (s : σ)
  | failed (b : β) (s : σ)
  | panicked

/-- A derived non-terminal. -/
inductive Derived (L T : Type) where
  /-- a node, the position behind it and the candidates not tried -/
  | node (n : Node L T) (q : Nat) (rest : List (List T))
  /-- a fix and the position behind it -/
  | fixed (fs : FixedSymbol L T) (q : Nat)

/-- What the search for the symbols of a production gives: the parts, one per symbol, and the position
behind them; or the failed symbol and the parts to be reported with it. -/
abbrev SeqOutcome (σ L T : Type) := Outcome σ (List (Part L T) × Nat) (FailedSymbol L T × List (Part L T))

/-- Put a part in front of what was found, or of what is reported. -/
def SeqOutcome.cons (a : Part L T) : SeqOutcome σ L T → SeqOutcome σ L T
  | .found (l, q) s => .found (a :: l, q) s
  | .failed (f, l) s => .failed (f, a :: l) s
  | .panicked => .panicked

/-- Put a failed production in front of the failed ones. -/
def consFailed (fp : FailedProduction L T) :
    Outcome σ (Derived L T) (List (FailedProduction L T)) →
    Outcome σ (Derived L T) (List (FailedProduction L T))
  | .found d s => .found d s
  | .failed fps s => .failed (fp :: fps) s
  | .panicked => .panicked

/-- The part of a fixed production a part stands for. -/
def toFixedPart : Part L T → FixedProductionPart L T
  | .ok n => .ok n
  | .fix fs => .fixed fs

/-- The answer of the solver to the failure of a non-terminal at `pos`: nothing without a solver or
off the single path; the fix of the failed production if there is exactly one; the fix of the list of
failed productions otherwise. -/
def answer (solver : Option (Solver σ L T)) (tokens : List (Token L T)) (pos : Nat) (single : Bool)
    (fps : List (FailedProduction L T)) (s : σ) : Out (Option (FixResult L T) × σ) :=
  match solver, single, fps with
  | none, _, _ => .ok (none, s)
  | some _, false, _ => .ok (none, s)
  | some sv, true, [fp] => sv.fixFailedProduction tokens pos fp s
  | some sv, true, fps => sv.fixFailedProductions tokens pos fps s

mutual
/-- `Choice x pos outs single s r`: deriving the non-terminal `x` at `pos` with the candidates `outs`
in solver state `s` gives `r`. -/
inductive Choice (eps : T) (ps : List (Production T)) (cand : T → T → List (List T))
    (solver : Option (Solver σ L T)) (tokens : List (Token L T)) :
    T → Nat → List (List T) → Bool → σ → Outcome σ (Derived L T) (FailedSymbol L T) → Prop where
  | derived (x : T) (pos : Nat) (outs : List (List T)) (single : Bool) (s s' : σ) (d : Derived L T) :
      Alts eps ps cand solver tokens x pos (single && decide (outs.length = 1)) outs s (.found d s') →
      Choice eps ps cand solver tokens x pos outs single s (.found d s')
  | panicked (x : T) (pos : Nat) (outs : List (List T)) (single : Bool) (s : σ) :
      Alts eps ps cand solver tokens x pos (single && decide (outs.length = 1)) outs s .panicked →
      Choice eps ps cand solver tokens x pos outs single s .panicked
  | fixed (x : T) (pos : Nat) (outs : List (List T)) (single : Bool) (s s1 s2 : σ)
      (fps : List (FailedProduction L T)) (r : FixResult L T) :
      Alts eps ps cand solver tokens x pos (single && decide (outs.length = 1)) outs s
        (.failed fps s1) →
      answer solver tokens pos single fps s1 = .ok (some r, s2) →
      Choice eps ps cand solver tokens x pos outs single s
        (.found (.fixed (.mk r.production x) r.finalTokenPosition) s2)
  | failed (x : T) (pos : Nat) (outs : List (List T)) (single : Bool) (s s1 s2 : σ)
      (fps : List (FailedProduction L T)) :
      Alts eps ps cand solver tokens x pos (single && decide (outs.length = 1)) outs s
        (.failed fps s1) →
      answer solver tokens pos single fps s1 = .ok (none, s2) →
      Choice eps ps cand solver tokens x pos outs single s (.failed (.mk fps x) s2)
  | solverPanics (x : T) (pos : Nat) (outs : List (List T)) (single : Bool) (s s1 : σ)
      (fps : List (FailedProduction L T)) (e : Panic) :
      Alts eps ps cand solver tokens x pos (single && decide (outs.length = 1)) outs s
        (.failed fps s1) →
      answer solver tokens pos single fps s1 = .panic e →
      Choice eps ps cand solver tokens x pos outs single s .panicked
/-- `Alts x pos single outs s r`: trying the candidates `outs` of `x` at `pos` in order gives `r`. -/
inductive Alts (eps : T) (ps : List (Production T)) (cand : T → T → List (List T))
    (solver : Option (Solver σ L T)) (tokens : List (Token L T)) :
    T → Nat → Bool → List (List T) → σ →
    Outcome σ (Derived L T) (List (FailedProduction L T)) → Prop where
  | none (x : T) (pos : Nat) (single : Bool) (s : σ) :
      Alts eps ps cand solver tokens x pos single [] s (.failed [] s)
  | node (x : T) (pos : Nat) (single : Bool) (out : List T) (outs : List (List T)) (s s' : σ)
      (ns : List (Node L T)) (q : Nat) :
      Seq eps ps cand solver tokens single out pos s (.found (ns.map .ok, q) s') →
      Alts eps ps cand solver tokens x pos single (out :: outs) s
        (.found (.node (.mk ns ⟨none, x⟩) q outs) s')
  | fixed (x : T) (pos : Nat) (single : Bool) (out : List T) (outs : List (List T)) (s s' : σ)
      (l : List (Part L T)) (q : Nat) :
      Seq eps ps cand solver tokens single out pos s (.found (l, q) s') →
      (∃ fs, ProductionParsedSymbol.fix fs ∈ l) →
      Alts eps ps cand solver tokens x pos single (out :: outs) s
        (.found (.fixed (.mk (.mk (l.map toFixedPart)) x) q) s')
  | next (x : T) (pos : Nat) (single : Bool) (out : List T) (outs : List (List T)) (s s' : σ)
      (f : FailedSymbol L T) (l : List (Part L T))
      (r : Outcome σ (Derived L T) (List (FailedProduction L T))) :
      Seq eps ps cand solver tokens single out pos s (.failed (f, l) s') →
      Alts eps ps cand solver tokens x pos single outs s' r →
      Alts eps ps cand solver tokens x pos single (out :: outs) s
        (consFailed (.mk f l (out.drop (l.length + 1))) r)
  | panicked (x : T) (pos : Nat) (single : Bool) (out : List T) (outs : List (List T)) (s : σ) :
      Seq eps ps cand solver tokens single out pos s .panicked →
      Alts eps ps cand solver tokens x pos single (out :: outs) s .panicked
/-- `Seq single xs pos s r`: searching the symbols `xs` from position `pos` on gives `r`. -/
inductive Seq (eps : T) (ps : List (Production T)) (cand : T → T → List (List T))
    (solver : Option (Solver σ L T)) (tokens : List (Token L T)) :
    Bool → List T → Nat → σ → SeqOutcome σ L T → Prop where
  | nil (single : Bool) (pos : Nat) (s : σ) :
      Seq eps ps cand solver tokens single [] pos s (.found ([], pos) s)
  | eps (single : Bool) (xs : List T) (pos : Nat) (s : σ) (r : SeqOutcome σ L T) :
      Seq eps ps cand solver tokens single xs pos s r →
      Seq eps ps cand solver tokens single (eps :: xs) pos s (r.cons (.ok (.mk [] ⟨none, eps⟩)))
  | terminal (single : Bool) (xs : List T) (pos : Nat) (s : σ) (t : Token L T)
      (r : SeqOutcome σ L T) : ¬ IsNonTerminal ps t.tType → t.tType ≠ eps → tokens[pos]? = some t →
      Seq eps ps cand solver tokens single xs (pos + 1) s r →
      Seq eps ps cand solver tokens single (t.tType :: xs) pos s (r.cons (.ok (.mk [] t)))
  | mismatch (single : Bool) (x : T) (xs : List T) (pos : Nat) (s : σ) : ¬ IsNonTerminal ps x →
      x ≠ eps → (∀ t, tokens[pos]? = some t → t.tType ≠ x) →
      Seq eps ps cand solver tokens single (x :: xs) pos s (.failed (.mk [] x, []) s)
  | runsOut (single : Bool) (x : T) (xs : List T) (pos : Nat) (s : σ) : IsNonTerminal ps x →
      tokens[pos]? = none → Seq eps ps cand solver tokens single (x :: xs) pos s .panicked
  | nonTerminal (single : Bool) (x : T) (xs : List T) (pos : Nat) (s s1 : σ) (t : Token L T)
      (n : Node L T) (q : Nat) (rest : List (List T)) (r r' : SeqOutcome σ L T) :
      IsNonTerminal ps x → tokens[pos]? = some t →
      Choice eps ps cand solver tokens x pos (cand x t.tType) single s
        (.found (.node n q rest) s1) →
      Seq eps ps cand solver tokens single xs q s1 r →
      Resume eps ps cand solver tokens single x xs pos n rest r r' →
      Seq eps ps cand solver tokens single (x :: xs) pos s r'
  | fixed (single : Bool) (x : T) (xs : List T) (pos : Nat) (s s1 : σ) (t : Token L T)
      (fs : FixedSymbol L T) (q : Nat) (r : SeqOutcome σ L T) : IsNonTerminal ps x →
      tokens[pos]? = some t →
      Choice eps ps cand solver tokens x pos (cand x t.tType) single s (.found (.fixed fs q) s1) →
      Seq eps ps cand solver tokens single xs q s1 r →
      Seq eps ps cand solver tokens single (x :: xs) pos s (r.cons (.fix fs))
  | failed (single : Bool) (x : T) (xs : List T) (pos : Nat) (s s1 : σ) (t : Token L T)
      (f : FailedSymbol L T) : IsNonTerminal ps x → tokens[pos]? = some t →
      Choice eps ps cand solver tokens x pos (cand x t.tType) single s (.failed f s1) →
      Seq eps ps cand solver tokens single (x :: xs) pos s (.failed (f, []) s1)
  | panicked (single : Bool) (x : T) (xs : List T) (pos : Nat) (s : σ) (t : Token L T) :
      IsNonTerminal ps x → tokens[pos]? = some t →
      Choice eps ps cand solver tokens x pos (cand x t.tType) single s .panicked →
      Seq eps ps cand solver tokens single (x :: xs) pos s .panicked
/-- `Resume single x xs pos n rest r r'`: if the non-terminal `x` at `pos` was derived as `n`, with
the candidates `rest` not tried, and the search for the symbols `xs` behind it gave `r`, then the
search for `x :: xs` gives `r'`. -/
inductive Resume (eps : T) (ps : List (Production T)) (cand : T → T → List (List T))
    (solver : Option (Solver σ L T)) (tokens : List (Token L T)) :
    Bool → T → List T → Nat → Node L T → List (List T) → SeqOutcome σ L T → SeqOutcome σ L T →
    Prop where
  | found (single : Bool) (x : T) (xs : List T) (pos : Nat) (n : Node L T) (rest : List (List T))
      (l : List (Part L T)) (q : Nat) (s : σ) :
      Resume eps ps cand solver tokens single x xs pos n rest (.found (l, q) s)
        (.found (.ok n :: l, q) s)
  | panicked (single : Bool) (x : T) (xs : List T) (pos : Nat) (n : Node L T)
      (rest : List (List T)) :
      Resume eps ps cand solver tokens single x xs pos n rest .panicked .panicked
  | again (single : Bool) (x : T) (xs : List T) (pos : Nat) (n n' : Node L T)
      (rest rest' : List (List T)) (f : FailedSymbol L T × List (Part L T)) (s s1 : σ) (q : Nat)
      (r r' : SeqOutcome σ L T) :
      Choice eps ps cand solver tokens x pos rest single s (.found (.node n' q rest') s1) →
      Seq eps ps cand solver tokens single xs q s1 r →
      Resume eps ps cand solver tokens single x xs pos n' rest' r r' →
      Resume eps ps cand solver tokens single x xs pos n rest (.failed f s) r'
  | gaveUp (single : Bool) (x : T) (xs : List T) (pos : Nat) (n : Node L T)
      (rest : List (List T)) (f : FailedSymbol L T × List (Part L T)) (s s1 : σ)
      (f' : FailedSymbol L T) :
      Choice eps ps cand solver tokens x pos rest single s (.failed f' s1) →
      Resume eps ps cand solver tokens single x xs pos n rest (.failed f s) (.failed f s1)
  | fixDropped (single : Bool) (x : T) (xs : List T) (pos : Nat) (n : Node L T)
      (rest : List (List T)) (f : FailedSymbol L T × List (Part L T)) (s s1 : σ)
      (fs : FixedSymbol L T) (q : Nat) :
      Choice eps ps cand solver tokens x pos rest single s (.found (.fixed fs q) s1) →
      Resume eps ps cand solver tokens single x xs pos n rest (.failed f s) (.failed f s1)
  | retryPanics (single : Bool) (x : T) (xs : List T) (pos : Nat) (n : Node L T)
      (rest : List (List T)) (f : FailedSymbol L T × List (Part L T)) (s : σ) :
      Choice eps ps cand solver tokens x pos rest single s .panicked →
      Resume eps ps cand solver tokens single x xs pos n rest (.failed f s) .panicked
end

/-- The result of `parse_from_tokens` for what the search for the initial symbol gives. -/
def result : Outcome σ (Derived L T) (FailedSymbol L T) → Option (ParseResult L T × σ)
  | .found (.node n _ _) s => some (.ok ⟨n⟩, s)
  | .found (.fixed fs _) s => some (.fix fs, s)
  | .failed f s => some (.err f, s)
  | .panicked => none

end Verif.Spec.Recovery
