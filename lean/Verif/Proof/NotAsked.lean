import Verif.Proof.Unasked

/-! # A search in which the solver is not asked does not depend on the solver -/

set_option linter.unusedSectionVars false

namespace Verif.Parser.Recovery

open Spec Spec.Recovery

variable {σ τ L T : Type} {eps : T} {ps : List (Production T)} {cand : T → T → List (List T)}
  {tokens : List (Token L T)}

/-- The search did not panic and the state of the solver behind it satisfies `A`. -/
def InState {α β : Type} (A : σ → Prop) : Outcome σ α β → Prop
  | .found _ s => A s
  | .failed _ s => A s
  | .panicked => False

theorem inState_cons {A : σ → Prop} {a : Part L T} {r : SeqOutcome σ L T} :
    InState A (r.cons a) ↔ InState A r := by
  match r with
  | .found _ _ => exact Iff.rfl
  | .failed _ _ => exact Iff.rfl
  | .panicked => exact Iff.rfl

theorem inState_consFailed {A : σ → Prop} {a : FailedProduction L T}
    {r : Outcome σ (Derived L T) (List (FailedProduction L T))} :
    InState A (consFailed a r) ↔ InState A r := by
  match r with
  | .found _ _ => exact Iff.rfl
  | .failed _ _ => exact Iff.rfl
  | .panicked => exact Iff.rfl

/-- Let no state behind a call of the solver satisfy `A`. If the state behind a search does, the solver
was not called, and the search with any other solver gives the same. -/
theorem choice_notAsked {solver : Option (Solver σ L T)} (solver' : Option (Solver τ L T)) (u : τ)
    {A : σ → Prop}
    (hA : ∀ pos fps s o s', answer solver tokens pos true fps s = .ok (o, s') → ¬ A s') {x : T}
    {pos : Nat} {outs : List (List T)} {sg : Bool} {s : σ}
    {r : Outcome σ (Derived L T) (FailedSymbol L T)}
    (h : Choice eps ps cand solver tokens x pos outs sg s r) (hr : InState A r) :
    A s ∧ Choice eps ps cand solver' tokens x pos outs sg u (setState u r) := by
  have hans : ∀ {pos sg fps s o s'}, answer solver tokens pos sg fps s = .ok (o, s') → A s' →
      sg = false ∧ o = none ∧ s' = s := by
    intro pos sg fps s o s' e hs
    cases sg with
    | true => exact absurd hs (hA _ _ _ _ _ e)
    | false =>
      rw [answer_off] at e
      cases e
      exact ⟨rfl, rfl, rfl⟩
  revert hr
  refine (Choice.rec (eps := eps) (ps := ps) (cand := cand)
    (solver := solver) (tokens := tokens)
    (motive_1 := fun x pos outs sg s r _ => InState A r → A s ∧
      Choice eps ps cand solver' tokens x pos outs sg u (setState u r))
    (motive_2 := fun x pos sg outs s r _ => InState A r → A s ∧
      Alts eps ps cand solver' tokens x pos sg outs u (setState u r))
    (motive_3 := fun sg ys q s r _ => InState A r → A s ∧
      Seq eps ps cand solver' tokens sg ys q u (setState u r))
    (motive_4 := fun sg y ys pos nd rest r0 r1 _ => InState A r1 → InState A r0 ∧
      Resume eps ps cand solver' tokens sg y ys pos nd rest (setState u r0) (setState u r1))
    ?_ ?_ ?_ ?_ ?_ ?_ ?_ ?_ ?_ ?_ ?_ ?_ ?_ ?_ ?_ ?_ ?_ ?_ ?_ ?_ ?_ ?_ ?_ ?_ ?_ h)
  -- Choice
  · intro x pos outs sg s s' d _ ih hr
    exact ⟨(ih hr).1, .derived _ _ _ _ _ _ _ (ih hr).2⟩
  · intro x pos outs sg s _ ih hr
    exact hr.elim
  · intro x pos outs sg s s1 s2 fps fr _ ha ih hr
    have := (hans ha hr).2.1
    simp at this
  · intro x pos outs sg s s1 s2 fps _ ha ih hr
    obtain ⟨rfl, _, rfl⟩ := hans ha hr
    exact ⟨(ih hr).1, .failed _ _ _ _ _ _ _ _ (ih hr).2 (answer_off _ _ _ _)⟩
  · intro x pos outs sg s s1 fps e _ ha ih hr
    exact hr.elim
  -- Alts
  · intro x pos sg s hr
    exact ⟨hr, .none _ _ _ _⟩
  · intro x pos sg out outs s s' ns q _ ih hr
    exact ⟨(ih hr).1, .node _ _ _ _ _ _ _ _ _ (ih hr).2⟩
  · intro x pos sg out outs s s' l q _ hfx ih hr
    exact ⟨(ih hr).1, .fixed _ _ _ _ _ _ _ _ _ (ih hr).2 hfx⟩
  · intro x pos sg out outs s s' f l r _ _ ih1 ih2 hr
    obtain ⟨h2, h3⟩ := ih2 (inState_consFailed.1 hr)
    obtain ⟨h0, h1⟩ := ih1 h2
    rw [setState_consFailed]
    exact ⟨h0, .next _ _ _ _ _ _ _ _ _ _ h1 h3⟩
  · intro x pos sg out outs s _ ih hr
    exact hr.elim
  -- Seq
  · intro sg pos s hr
    exact ⟨hr, .nil _ _ _⟩
  · intro sg ys pos s r0 _ ih hr
    obtain ⟨h1, h2⟩ := ih (inState_cons.1 hr)
    rw [setState_cons]
    exact ⟨h1, .eps _ _ _ _ _ h2⟩
  · intro sg ys pos s t r0 hy he ht _ ih hr
    obtain ⟨h1, h2⟩ := ih (inState_cons.1 hr)
    rw [setState_cons]
    exact ⟨h1, .terminal _ _ _ _ _ _ hy he ht h2⟩
  · intro sg y ys pos s hy he hne hr
    exact ⟨hr, .mismatch _ _ _ _ _ hy he hne⟩
  · intro sg y ys pos s hy ht hr
    exact hr.elim
  · intro sg y ys pos s s1 t nd q rest r0 r1 hy ht _ _ _ ih1 ih2 ih3 hr
    obtain ⟨h1, h2⟩ := ih3 hr
    obtain ⟨h3, h4⟩ := ih2 h1
    obtain ⟨h5, h6⟩ := ih1 h3
    exact ⟨h5, .nonTerminal _ _ _ _ _ _ _ _ _ _ _ _ hy ht h6 h4 h2⟩
  · intro sg y ys pos s s1 t fs q r0 hy ht _ _ ih1 ih2 hr
    obtain ⟨h3, h4⟩ := ih2 (inState_cons.1 hr)
    obtain ⟨h5, h6⟩ := ih1 h3
    rw [setState_cons]
    exact ⟨h5, .fixed _ _ _ _ _ _ _ _ _ _ hy ht h6 h4⟩
  · intro sg y ys pos s s1 t f hy ht _ ih1 hr
    exact ⟨(ih1 hr).1, .failed _ _ _ _ _ _ _ _ hy ht (ih1 hr).2⟩
  · intro sg y ys pos s t hy ht _ ih1 hr
    exact hr.elim
  -- Resume
  · intro sg y ys pos nd rest l q s hr
    exact ⟨hr, .found _ _ _ _ _ _ _ _ _⟩
  · intro sg y ys pos nd rest hr
    exact hr.elim
  · intro sg y ys pos nd nd' rest rest' f s s1 q r0 r1 _ _ _ ih1 ih2 ih3 hr
    obtain ⟨h1, h2⟩ := ih3 hr
    obtain ⟨h3, h4⟩ := ih2 h1
    obtain ⟨h5, h6⟩ := ih1 h3
    exact ⟨h5, .again _ _ _ _ _ _ _ _ _ _ _ _ _ _ h6 h4 h2⟩
  · intro sg y ys pos nd rest f s s1 f' _ ih1 hr
    exact ⟨(ih1 hr).1, .gaveUp _ _ _ _ _ _ _ _ _ _ (ih1 hr).2⟩
  · intro sg y ys pos nd rest f s s1 fs q _ ih1 hr
    exact ⟨(ih1 hr).1, .fixDropped _ _ _ _ _ _ _ _ _ _ _ (ih1 hr).2⟩
  · intro sg y ys pos nd rest f s _ ih1 hr
    exact hr.elim

end Verif.Parser.Recovery
