import Verif.Spec.ReportAt
import Verif.Proof.Predicted
import Verif.Proof.FixAt

/-! # Failure reports and positions -/

set_option linter.unusedSectionVars false

namespace Verif.Parser.Recovery

open Spec Spec.Recovery

variable {σ L T : Type} [DecidableEq T] {eps : T} {ps : List (Production T)}
  {tokens : List (Token L T)} {cand : T → T → List (List T)}
  {solver : Option (Solver σ L T)}

/-- The failure of a sequence of symbols. -/
def SeqFails (eps : T) (ps : List (Production T)) (cand : T → T → List (List T))
    (solver : Option (Solver σ L T)) (tokens : List (Token L T)) (xs : List T) (pos : Nat)
    (r : SeqOutcome σ L T) : Prop :=
  ∀ f l s', r = .failed (f, l) s' → ∃ before y after j, xs = before ++ y :: after ∧
    Before eps ps cand solver tokens before pos l j ∧ FailsAt eps ps cand solver tokens y j f

theorem seqFails_cons {x : T} {xs : List T} {i k : Nat} {a : Part L T} {r : SeqOutcome σ L T}
    (hb : ∀ before l j, Before eps ps cand solver tokens before k l j →
      Before eps ps cand solver tokens (x :: before) i (a :: l) j)
    (h : SeqFails eps ps cand solver tokens xs k r) :
    SeqFails eps ps cand solver tokens (x :: xs) i (r.cons a) := by
  intro f l s' e
  match r, h, e with
  | .failed (f', l') s, h, e =>
    simp only [SeqOutcome.cons, Outcome.failed.injEq, Prod.mk.injEq] at e
    obtain ⟨⟨rfl, rfl⟩, rfl⟩ := e
    obtain ⟨before, y, after, j, rfl, h1, h2⟩ := h _ _ _ rfl
    exact ⟨x :: before, y, after, j, rfl, hb _ _ _ h1, h2⟩
  | .found (_, _) _, _, e => simp [SeqOutcome.cons] at e
  | .panicked, _, e => simp [SeqOutcome.cons] at e

theorem choice_fails (hcand : ∀ x a out, out ∈ cand x a → (⟨x, out⟩ : Production T) ∈ ps) {x : T} {pos : Nat}
    {outs : List (List T)} {single : Bool} {s : σ}
    {r : Outcome σ (Derived L T) (FailedSymbol L T)}
    (h : Choice eps ps cand solver tokens x pos outs single s r) :
    ∀ f s', r = .failed f s' → ∃ fps, f = .mk fps x ∧ EachFailsAt eps ps cand solver tokens pos outs fps := by
  refine Choice.rec (eps := eps) (ps := ps) (cand := cand) (solver := solver) (tokens := tokens)
    (motive_1 := fun x pos outs _ _ r _ => ∀ f s', r = .failed f s' →
      ∃ fps, f = .mk fps x ∧ EachFailsAt eps ps cand solver tokens pos outs fps)
    (motive_2 := fun _ pos _ outs _ r _ => ∀ fps s', r = .failed fps s' →
      EachFailsAt eps ps cand solver tokens pos outs fps)
    (motive_3 := fun _ xs pos _ r _ => SeqFails eps ps cand solver tokens xs pos r)
    (motive_4 := fun _ x xs pos n rest r r' _ => ∀ t, IsNonTerminal ps x → tokens[pos]? = some t →
      (∀ o ∈ rest, o ∈ cand x t.tType) →
      (∃ j, Predicted eps ps cand tokens x pos n j ∧ SeqFails eps ps cand solver tokens xs j r) →
      SeqFails eps ps cand solver tokens (x :: xs) pos r')
    ?_ ?_ ?_ ?_ ?_ ?_ ?_ ?_ ?_ ?_ ?_ ?_ ?_ ?_ ?_ ?_ ?_ ?_ ?_ ?_ ?_ ?_ ?_ ?_ ?_ h
  -- Choice
  · intro x pos outs sg s s' d _ _ f s'' e; cases e
  · intro x pos outs sg s _ _ f s'' e; cases e
  · intro x pos outs sg s s1 s2 fps r _ _ _ f s'' e; cases e
  · intro x pos outs sg s s1 s2 fps _ _ ih f s'' e
    cases e
    exact ⟨fps, rfl, ih _ _ rfl⟩
  · intro x pos outs sg s s1 fps er _ _ _ f s'' e; cases e
  -- Alts
  · intro x pos sg s fps s'' e
    cases e
    exact .nil _
  · intro x pos sg out outs s s' ns q _ _ fps s'' e; cases e
  · intro x pos sg out outs s s' l q _ _ _ fps s'' e; cases e
  · intro x pos sg out outs s s' f l r _ _ ih1 ih2 fps s'' e
    match r, ih2, e with
    | .found d s1, _, e => cases e
    | .failed fps' s1, ih2, e =>
      simp only [consFailed, Outcome.failed.injEq] at e
      obtain ⟨rfl, rfl⟩ := e
      obtain ⟨before, y, after, j, rfl, h1, h2⟩ := ih1 _ _ _ rfl
      exact .cons _ _ _ _ _ _ _ _ _ h1 h2 (ih2 _ _ rfl)
    | .panicked, _, e => cases e
  · intro x pos sg out outs s _ _ fps s'' e; cases e
  -- Seq
  · intro sg pos s f l s' e; cases e
  · intro sg xs pos s r _ ih
    exact seqFails_cons (fun _ _ _ hb => .eps _ _ _ _ hb) ih
  · intro sg xs pos s t r h1 h2 h3 _ ih
    exact seqFails_cons (fun _ _ _ hb => .terminal _ _ _ _ _ h1 h2 h3 hb) ih
  · intro sg x xs pos s h1 h2 h3 f l s' e
    simp only [Outcome.failed.injEq, Prod.mk.injEq] at e
    obtain ⟨⟨rfl, rfl⟩, rfl⟩ := e
    exact ⟨[], x, xs, pos, rfl, .nil _, .terminal _ _ h1 h2 h3⟩
  · intro sg x xs pos s _ _ f l s' e; cases e
  · intro sg x xs pos s s1 t n q rest r r' hx ht hc _ _ _ ih2 ih3
    obtain ⟨⟨out, ns, h1, rfl, h3⟩, h4⟩ := choice_predicted hc n q rest _ rfl
    exact ih3 t hx ht h4 ⟨q, .node x pos t out ns q hx ht h1 h3, ih2⟩
  · intro sg x xs pos s s1 t fs q r hx ht hc _ _ ih
    obtain ⟨w, hw⟩ := choice_at hcand hc (fun o ho => hcand _ _ _ ho) (List.getElem?_eq_some_iff.1 ht).1
    exact seqFails_cons (fun _ _ _ hb => .fixed _ _ _ _ _ w _ _ hx hw hb) ih
  · intro sg x xs pos s s1 t f hx ht _ ih f' l s' e
    simp only [Outcome.failed.injEq, Prod.mk.injEq] at e
    obtain ⟨⟨rfl, rfl⟩, rfl⟩ := e
    obtain ⟨fps, rfl, h2⟩ := ih _ _ rfl
    exact ⟨[], x, xs, pos, rfl, .nil _, .nonTerminal _ _ t _ hx ht h2⟩
  · intro sg x xs pos s t _ _ _ _ f l s' e; cases e
  -- Resume
  · intro sg x xs pos n rest l q s t _ _ _ _ f l s' e; cases e
  · intro sg x xs pos n rest t _ _ _ _ f l s' e; cases e
  · intro sg x xs pos n n' rest rest' f s s1 q r r' hc _ _ _ ih2 ih3 t hx ht hr _
    obtain ⟨⟨out, ns, h1, rfl, h3⟩, h4⟩ := choice_predicted hc n' q rest' _ rfl
    exact ih3 t hx ht (fun o ho => hr o (h4 o ho)) ⟨q, .node x pos t out ns q hx ht (hr out h1) h3, ih2⟩
  · intro sg x xs pos n rest f s s1 f' _ _ t hx _ _ ⟨j, h1, h2⟩ f'' l s' e
    obtain ⟨f0, l0⟩ := f
    simp only [Outcome.failed.injEq, Prod.mk.injEq] at e
    obtain ⟨⟨rfl, rfl⟩, rfl⟩ := e
    obtain ⟨before, y, after, k, rfl, h3, h4⟩ := h2 _ _ _ rfl
    exact ⟨x :: before, y, after, k, rfl, .derived _ _ _ _ _ _ _ hx h1 h3, h4⟩
  · intro sg x xs pos n rest f s s1 fs q _ _ t hx _ _ ⟨j, h1, h2⟩ f'' l s' e
    obtain ⟨f0, l0⟩ := f
    simp only [Outcome.failed.injEq, Prod.mk.injEq] at e
    obtain ⟨⟨rfl, rfl⟩, rfl⟩ := e
    obtain ⟨before, y, after, k, rfl, h3, h4⟩ := h2 _ _ _ rfl
    exact ⟨x :: before, y, after, k, rfl, .derived _ _ _ _ _ _ _ hx h1 h3, h4⟩
  · intro sg x xs pos n rest f s _ _ t _ _ _ _ f' l s' e; cases e

end Verif.Parser.Recovery
