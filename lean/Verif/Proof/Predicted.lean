import Verif.Proof.Recovery
import Verif.Spec.Predicted

/-! # The parser builds predicted trees -/

set_option linter.unusedSectionVars false

namespace Verif.Parser.Recovery

open Spec Spec.Recovery

variable {σ L T : Type} [DecidableEq T] {eps init : T} {ps : List (Production T)}
  {cand : T → T → List (List T)} {solver : Option (Solver σ L T)} {tokens : List (Token L T)}

def SeqPred (eps : T) (ps : List (Production T)) (cand : T → T → List (List T))
    (tokens : List (Token L T)) (xs : List T) (pos : Nat) (r : SeqOutcome σ L T) : Prop :=
  ∀ ns q s', r = .found (ns.map .ok, q) s' → PredictedSeq eps ps cand tokens xs pos ns q

def ChoicePred (eps : T) (ps : List (Production T)) (cand : T → T → List (List T))
    (tokens : List (Token L T)) (x : T) (pos : Nat) (outs : List (List T)) {β : Type}
    (r : Outcome σ (Derived L T) β) : Prop :=
  ∀ n q rest s', r = .found (.node n q rest) s' →
    (∃ out ns, out ∈ outs ∧ n = .mk ns ⟨none, x⟩ ∧ PredictedSeq eps ps cand tokens out pos ns q) ∧
    ∀ o ∈ rest, o ∈ outs

theorem map_ok_inj {a b : List (Node L T)}
    (h : a.map (ProductionParsedSymbol.ok (L := L) (T := T)) = b.map .ok) : a = b := by
  induction a generalizing b with
  | nil => cases b <;> simp_all
  | cons x a ih =>
    cases b with
    | nil => simp at h
    | cons y b =>
      simp only [List.map_cons, List.cons.injEq, ProductionParsedSymbol.ok.injEq] at h
      rw [h.1, ih h.2]

theorem seqPred_cons {x : T} {xs : List T} {i j : Nat} {n : Node L T} {r : SeqOutcome σ L T}
    (hn : Predicted eps ps cand tokens x i n j) (h : SeqPred eps ps cand tokens xs j r) :
    SeqPred eps ps cand tokens (x :: xs) i (r.cons (.ok n)) := by
  intro ns q s' e
  match r, h, e with
  | .found (l, q') s, h, e =>
    simp only [SeqOutcome.cons, Outcome.found.injEq, Prod.mk.injEq] at e
    obtain ⟨⟨e1, rfl⟩, rfl⟩ := e
    cases ns with
    | nil => simp at e1
    | cons m ms =>
      simp only [List.map_cons, List.cons.injEq, ProductionParsedSymbol.ok.injEq] at e1
      obtain ⟨rfl, rfl⟩ := e1
      exact .cons _ _ _ _ _ _ _ hn (h _ _ _ rfl)
  | .failed _ _, _, e => simp [SeqOutcome.cons] at e
  | .panicked, _, e => simp [SeqOutcome.cons] at e

theorem choice_predicted {x : T} {pos : Nat} {outs : List (List T)} {single : Bool} {s : σ}
    {r : Outcome σ (Derived L T) (FailedSymbol L T)}
    (h : Choice eps ps cand solver tokens x pos outs single s r) :
    ChoicePred eps ps cand tokens x pos outs r := by
  refine Choice.rec (eps := eps) (ps := ps) (cand := cand) (solver := solver) (tokens := tokens)
    (motive_1 := fun x pos outs _ _ r _ => ChoicePred eps ps cand tokens x pos outs r)
    (motive_2 := fun x pos _ outs _ r _ => ChoicePred eps ps cand tokens x pos outs r)
    (motive_3 := fun _ xs pos _ r _ => SeqPred eps ps cand tokens xs pos r)
    (motive_4 := fun _ x xs pos n rest r r' _ => ∀ t, IsNonTerminal ps x → tokens[pos]? = some t →
      (∀ o ∈ rest, o ∈ cand x t.tType) →
      (∃ j, Predicted eps ps cand tokens x pos n j ∧ SeqPred eps ps cand tokens xs j r) →
      SeqPred eps ps cand tokens (x :: xs) pos r')
    ?_ ?_ ?_ ?_ ?_ ?_ ?_ ?_ ?_ ?_ ?_ ?_ ?_ ?_ ?_ ?_ ?_ ?_ ?_ ?_ ?_ ?_ ?_ ?_ ?_ h
  -- Choice
  · intro x pos outs sg s s' d _ ih n q rest s'' e
    cases e
    exact ih n q rest _ rfl
  · intro x pos outs sg s _ ih n q rest s'' e; cases e
  · intro x pos outs sg s s1 s2 fps r _ ha _ n q rest s'' e; cases e
  · intro x pos outs sg s s1 s2 fps _ _ _ n q rest s'' e; cases e
  · intro x pos outs sg s s1 fps er _ ha _ n q rest s'' e; cases e
  -- Alts
  · intro x pos sg s n q rest s'' e; cases e
  · intro x pos sg out outs s s' ns q _ ih n q' rest s'' e
    cases e
    exact ⟨⟨out, ns, by simp, rfl, ih ns q _ rfl⟩, fun o ho => by simp [ho]⟩
  · intro x pos sg out outs s s' l q _ _ ih n q' rest s'' e; cases e
  · intro x pos sg out outs s s' f l r _ _ _ ih n q rest s'' e
    match r, ih, e with
    | .found d s1, ih, e =>
      cases e
      obtain ⟨⟨o, ns, h1, h2, h3⟩, h4⟩ := ih n q rest _ rfl
      exact ⟨⟨o, ns, by simp [h1], h2, h3⟩, fun o ho => by simp [h4 o ho]⟩
    | .failed _ _, _, e => cases e
    | .panicked, _, e => cases e
  · intro x pos sg out outs s _ ih n q rest s'' e; cases e
  -- Seq
  · intro sg pos s ns q s' e
    simp only [Outcome.found.injEq, Prod.mk.injEq] at e
    obtain ⟨⟨e1, rfl⟩, rfl⟩ := e
    cases ns with
    | nil => exact .nil _
    | cons => simp at e1
  · intro sg xs pos s r _ ih
    exact seqPred_cons (.eps pos) ih
  · intro sg xs pos s t r h1 h2 h3 _ ih
    exact seqPred_cons (.leaf t pos h1 h2 h3) ih
  · intro sg x xs pos s _ _ _ ns q s' e; cases e
  · intro sg x xs pos s _ _ ns q s' e; cases e
  · intro sg x xs pos s s1 t n q rest r r' hx ht _ _ _ ih1 ih2 ih3
    obtain ⟨⟨out, ns, h1, rfl, h3⟩, h4⟩ := ih1 n q rest _ rfl
    exact ih3 t hx ht h4 ⟨q, .node x pos t out ns q hx ht h1 h3, ih2⟩
  · intro sg x xs pos s s1 t fs q r hx ht _ _ _ ih ns q' s' e
    match r, e with
    | .found (l, q'') s'', e =>
      simp only [SeqOutcome.cons, Outcome.found.injEq, Prod.mk.injEq] at e
      obtain ⟨⟨e1, _⟩, _⟩ := e
      cases ns <;> simp at e1
    | .failed _ _, e => simp [SeqOutcome.cons] at e
    | .panicked, e => simp [SeqOutcome.cons] at e
  · intro sg x xs pos s s1 t f _ _ _ _ ns q s' e; cases e
  · intro sg x xs pos s t _ _ _ _ ns q s' e; cases e
  -- Resume
  · intro sg x xs pos n rest l q s t hx ht hr ⟨j, h1, h2⟩
    exact seqPred_cons (r := .found (l, q) s) h1 h2
  · intro sg x xs pos n rest t _ _ _ _ ns q s' e; cases e
  · intro sg x xs pos n n' rest rest' f s s1 q r r' _ _ _ ih1 ih2 ih3 t hx ht hr _
    obtain ⟨⟨out, ns, h1, rfl, h3⟩, h4⟩ := ih1 n' q rest' _ rfl
    exact ih3 t hx ht (fun o ho => hr o (h4 o ho)) ⟨q, .node x pos t out ns q hx ht (hr out h1) h3, ih2⟩
  · intro sg x xs pos n rest f s s1 f' _ _ t _ _ _ _ ns q s' e; cases e
  · intro sg x xs pos n rest f s s1 fs q _ _ t _ _ _ _ ns q' s' e; cases e
  · intro sg x xs pos n rest f s _ _ t _ _ _ _ ns q' s' e; cases e

/-- Without conflicts, predicted trees are found, and no solver is asked. -/
theorem seq_of_predicted (hcf : ∀ x a, (cand x a).length ≤ 1) {xs : List T} {i j : Nat}
    {ns : List (Node L T)} (h : PredictedSeq eps ps cand tokens xs i ns j) (single : Bool) (s : σ) :
    Spec.Recovery.Seq eps ps cand solver tokens single xs i s (.found (ns.map .ok, j) s) := by
  revert single s
  refine PredictedSeq.rec (eps := eps) (ps := ps) (cand := cand) (tokens := tokens)
    (motive_1 := fun x i n j _ => ∀ xs (r : SeqOutcome σ L T) (single : Bool) (s : σ),
      Spec.Recovery.Seq eps ps cand solver tokens single xs j s r →
      (∃ l q s', r = .found (l, q) s') →
      Spec.Recovery.Seq eps ps cand solver tokens single (x :: xs) i s (r.cons (.ok n)))
    (motive_2 := fun xs i ns j _ => ∀ (single : Bool) (s : σ),
      Spec.Recovery.Seq eps ps cand solver tokens single xs i s (.found (ns.map .ok, j) s))
    ?_ ?_ ?_ ?_ ?_ h
  · intro t i h1 h2 h3 xs r sg s hr _
    exact .terminal sg xs i s t r h1 h2 h3 hr
  · intro i xs r sg s hr _
    exact .eps sg xs i s r hr
  · intro x i t out ns j hx ht ho hs ih xs r sg s hr he
    obtain ⟨l, q, s', rfl⟩ := he
    have hc : cand x t.tType = [out] := by
      have := hcf x t.tType
      match hl : cand x t.tType, ho, this with
      | [o], ho, _ => simp at ho; rw [ho]
    refine .nonTerminal sg x xs i s s t (.mk ns ⟨none, x⟩) j [] _ _ hx ht ?_ hr (.found _ _ _ _ _ _ _ _ _)
    rw [hc]
    exact .derived _ _ _ _ _ _ _ (.node _ _ _ _ _ _ _ _ _ (ih _ s))
  · intro i sg s
    exact .nil sg i s
  · intro x xs i j k n ns _ _ ih1 ih2 sg s
    exact ih1 xs _ sg s (ih2 sg s) ⟨_, _, _, rfl⟩

theorem choice_of_predicted (hcf : ∀ x a, (cand x a).length ≤ 1) {x : T} {i j : Nat} {n : Node L T}
    (hx : IsNonTerminal ps x) (hw : WellFormed eps ps)
    (h : Predicted eps ps cand tokens x i n j) (s : σ) : ∃ t, tokens[i]? = some t ∧
      Choice eps ps cand solver tokens x i (cand x t.tType) true s (.found (.node n j []) s) := by
  cases h with
  | leaf t _ h1 => exact absurd hx h1
  | eps =>
    obtain ⟨q, hq, e⟩ := hx
    exact absurd e (hw q hq).1
  | node _ _ t out ns _ _ ht ho hs =>
    refine ⟨t, ht, ?_⟩
    have hc : cand x t.tType = [out] := by
      have := hcf x t.tType
      match hl : cand x t.tType, ho, this with
      | [o], ho, _ => simp at ho; rw [ho]
    rw [hc]
    exact .derived _ _ _ _ _ _ _ (.node _ _ _ _ _ _ _ _ _ (seq_of_predicted hcf hs _ s))

end Verif.Parser.Recovery
