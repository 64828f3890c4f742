import Verif.Proof.FixKept

/-! # Without conflicts the last answer of the solver decides -/

set_option linter.unusedSectionVars false

namespace Verif.Parser.Recovery

open Spec Spec.Recovery

variable {σ L T : Type} {eps : T} {ps : List (Production T)} {cand : T → T → List (List T)}
  {tokens : List (Token L T)} {sv : Solver σ L T}

/-- The log of the second state continues that of the first. -/
def Grows (s s' : σ × List (LoggedCall L T)) : Prop := ∃ new, s'.2 = s.2 ++ new

/-- There are new calls, and the last of them returned a fix (`b = true`) or none (`b = false`). -/
def Ends (b : Bool) (s s' : σ × List (LoggedCall L T)) : Prop :=
  ∃ new c, s'.2 = s.2 ++ (new ++ [c]) ∧ c.fixed = b

theorem Grows.trans {s s1 s2 : σ × List (LoggedCall L T)} (h1 : Grows s s1) (h2 : Grows s1 s2) :
    Grows s s2 := by
  obtain ⟨n1, e1⟩ := h1
  obtain ⟨n2, e2⟩ := h2
  exact ⟨n1 ++ n2, by rw [e2, e1, List.append_assoc]⟩

theorem Grows.ends {b : Bool} {s s1 s2 : σ × List (LoggedCall L T)} (h1 : Grows s s1) (h2 : Ends b s1 s2) :
    Ends b s s2 := by
  obtain ⟨n1, e1⟩ := h1
  obtain ⟨n2, c, e2, hc⟩ := h2
  exact ⟨n1 ++ n2, c, by rw [e2, e1, List.append_assoc, List.append_assoc], hc⟩

theorem Ends.grows {b : Bool} {s s' : σ × List (LoggedCall L T)} (h : Ends b s s') : Grows s s' := by
  obtain ⟨n, c, e, _⟩ := h
  exact ⟨_, e⟩

theorem Grows.of_eq {s s' : σ × List (LoggedCall L T)} (h : s'.2 = s.2) : Grows s s' :=
  ⟨[], by rw [h, List.append_nil]⟩

theorem Ends.of_eq {b : Bool} {s s1 s2 : σ × List (LoggedCall L T)} (h : Ends b s s1) (e : s2.2 = s1.2) :
    Ends b s s2 := by
  obtain ⟨n, c, h, hc⟩ := h
  exact ⟨n, c, by rw [e, h], hc⟩

theorem ends_answer {pos : Nat} {s s1 : σ × List (LoggedCall L T)}
    {fps : List (FailedProduction L T)} {o : Option (FixResult L T)}
    (ha : answer (some (logCalls sv)) tokens pos true fps s = .ok (o, s1)) : Ends o.isSome s s1 :=
  ⟨[], _, by simpa using answer_log ha, rfl⟩

def ChoiceEnds (s : σ × List (LoggedCall L T)) :
    Outcome (σ × List (LoggedCall L T)) (Derived L T) (FailedSymbol L T) → Prop
  | .found (.node _ _ _) s' => s'.2 = s.2
  | .found (.fixed _ _) s' => Ends true s s'
  | .failed _ s' => Ends false s s'
  | .panicked => True

def AltsEnds (s : σ × List (LoggedCall L T)) :
    Outcome (σ × List (LoggedCall L T)) (Derived L T) (List (FailedProduction L T)) → Prop
  | .found (.node _ _ _) s' => s'.2 = s.2
  | .found (.fixed _ _) s' => Ends true s s'
  | .failed _ s' => Grows s s'
  | .panicked => True

def SeqEnds (s : σ × List (LoggedCall L T)) : SeqOutcome (σ × List (LoggedCall L T)) L T → Prop
  | .found (l, _) s' => (FixIn l ∧ Ends true s s') ∨ (¬ FixIn l ∧ s'.2 = s.2)
  | .failed _ s' => Grows s s'
  | .panicked => True

theorem SeqEnds.trans {s s1 : σ × List (LoggedCall L T)} {r : SeqOutcome (σ × List (LoggedCall L T)) L T}
    (e : s1.2 = s.2) (h : SeqEnds s1 r) : SeqEnds s r := by
  match r, h with
  | .found (l, q) s', h =>
    rcases h with ⟨h1, h2⟩ | ⟨h1, h2⟩
    · exact .inl ⟨h1, (Grows.of_eq e).ends h2⟩
    · exact .inr ⟨h1, h2.trans e⟩
  | .failed _ _, h => exact (Grows.of_eq e).trans h
  | .panicked, _ => trivial

theorem SeqEnds.cons {s : σ × List (LoggedCall L T)} {n : Node L T}
    {r : SeqOutcome (σ × List (LoggedCall L T)) L T} (h : SeqEnds s r) : SeqEnds s (r.cons (.ok n)) := by
  match r, h with
  | .found (l, q) s', h =>
    have e : FixIn (ProductionParsedSymbol.ok n :: l) ↔ FixIn l := by
      unfold FixIn
      simp
    rcases h with ⟨h1, h2⟩ | ⟨h1, h2⟩
    · exact .inl ⟨e.2 h1, h2⟩
    · exact .inr ⟨fun h => h1 (e.1 h), h2⟩
  | .failed (_, _) _, h => exact h
  | .panicked, _ => trivial

theorem SeqEnds.consFix {s s1 : σ × List (LoggedCall L T)} {fs : FixedSymbol L T}
    {r : SeqOutcome (σ × List (LoggedCall L T)) L T} (h1 : Ends true s s1) (h : SeqEnds s1 r) :
    SeqEnds s (r.cons (.fix fs)) := by
  match r, h with
  | .found (l, q) s', h =>
    refine .inl ⟨⟨fs, by simp⟩, ?_⟩
    rcases h with ⟨_, h2⟩ | ⟨_, h2⟩
    · exact h1.grows.ends h2
    · exact h1.of_eq h2
  | .failed (_, _) _, h => exact h1.grows.trans h
  | .panicked, _ => trivial

theorem ChoiceEnds.grows {s s' : σ × List (LoggedCall L T)} {f : FailedSymbol L T}
    (h : ChoiceEnds s (.failed f s')) : Grows s s' := Ends.grows h

theorem choice_ends (hcf : ∀ x a, (cand x a).length ≤ 1) {x : T} {pos : Nat}
    {outs : List (List T)} {s : σ × List (LoggedCall L T)}
    {r : Outcome (σ × List (LoggedCall L T)) (Derived L T) (FailedSymbol L T)}
    (h : Choice eps ps cand (some (logCalls sv)) tokens x pos outs true s r) (hlen : outs.length ≤ 1) :
    ChoiceEnds s r := by
  refine (Choice.rec (eps := eps) (ps := ps) (cand := cand)
    (solver := some (logCalls sv)) (tokens := tokens)
    (motive_1 := fun x pos outs sg s r _ => outs.length ≤ 1 → sg = true → ChoiceEnds s r)
    (motive_2 := fun x pos sg outs s r _ => outs.length ≤ 1 → (outs ≠ [] → sg = true) → AltsEnds s r)
    (motive_3 := fun sg ys q s r _ => sg = true → SeqEnds s r)
    (motive_4 := fun sg y ys pos nd rest r0 r1 _ => rest = [] → sg = true →
      ∀ s, SeqEnds s r0 → SeqEnds s r1)
    ?_ ?_ ?_ ?_ ?_ ?_ ?_ ?_ ?_ ?_ ?_ ?_ ?_ ?_ ?_ ?_ ?_ ?_ ?_ ?_ ?_ ?_ ?_ ?_ ?_ h) hlen rfl
  -- Choice
  · intro x pos outs sg s s' d _ ih hl hsg
    have := ih hl (by
      intro hne
      have : outs.length ≠ 0 := by simpa using hne
      simp [hsg, show outs.length = 1 by omega])
    match d, this with
    | .node _ _ _, h => exact h
    | .fixed _ _, h => exact h
  · intro x pos outs sg s _ ih hl hsg
    trivial
  · intro x pos outs sg s s1 s2 fps fr hA ha ih hl hsg
    have := ih hl (by
      intro hne
      have : outs.length ≠ 0 := by simpa using hne
      simp [hsg, show outs.length = 1 by omega])
    subst hsg
    exact Grows.ends this (ends_answer ha)
  · intro x pos outs sg s s1 s2 fps hA ha ih hl hsg
    have := ih hl (by
      intro hne
      have : outs.length ≠ 0 := by simpa using hne
      simp [hsg, show outs.length = 1 by omega])
    subst hsg
    exact Grows.ends this (ends_answer ha)
  · intro x pos outs sg s s1 fps e _ ha ih hl hsg
    trivial
  -- Alts
  · intro x pos sg s _ _
    exact Grows.of_eq rfl
  · intro x pos sg out outs s s' ns q _ ih _ hsg
    rcases ih (hsg (by simp)) with ⟨⟨fs, h⟩, _⟩ | ⟨_, h⟩
    · simp at h
    · exact h
  · intro x pos sg out outs s s' l q _ hfx ih _ hsg
    rcases ih (hsg (by simp)) with ⟨_, h⟩ | ⟨h, _⟩
    · exact h
    · exact absurd hfx h
  · intro x pos sg out outs s s' f l r _ hA ih1 ih2 hl hsg
    have hos : outs = [] := by simp at hl; exact hl
    subst hos
    cases hA
    exact ih1 (hsg (by simp))
  · intro x pos sg out outs s _ ih _ _
    trivial
  -- Seq
  · intro sg pos s _
    exact .inr ⟨by rintro ⟨fs, h⟩; simp at h, rfl⟩
  · intro sg ys pos s r0 _ ih hsg
    exact (ih hsg).cons
  · intro sg ys pos s t r0 hy he ht _ ih hsg
    exact (ih hsg).cons
  · intro sg y ys pos s hy he hne _
    exact Grows.of_eq rfl
  · intro sg y ys pos s hy ht _
    trivial
  · intro sg y ys pos s s1 t nd q rest r0 r1 hy ht hC _ _ ih1 ih2 ih3 hsg
    exact ih3 (choice_noRest (hcf _ _) hC).2 hsg s (SeqEnds.trans (ih1 (hcf _ _) hsg) (ih2 hsg))
  · intro sg y ys pos s s1 t fs q r0 hy ht _ _ ih1 ih2 hsg
    exact SeqEnds.consFix (ih1 (hcf _ _) hsg) (ih2 hsg)
  · intro sg y ys pos s s1 t f hy ht _ ih1 hsg
    exact (ih1 (hcf _ _) hsg).grows
  · intro sg y ys pos s t hy ht _ ih1 _
    trivial
  -- Resume
  · intro sg y ys pos nd rest l q s _ _ s0 h
    exact (SeqEnds.cons (r := .found (l, q) s) h)
  · intro sg y ys pos nd rest _ _ s0 h
    trivial
  · intro sg y ys pos nd nd' rest rest' f s s1 q r0 r1 hC _ _ ih1 ih2 ih3 hr hsg s0 h
    subst hr
    exact absurd rfl (choice_noRest (by simp) hC).1
  · intro sg y ys pos nd rest f s s1 f' hC ih1 hr hsg s0 h
    subst hr
    exact Grows.trans h (ih1 (by simp) hsg).grows
  · intro sg y ys pos nd rest f s s1 fs q hC ih1 hr hsg s0 h
    subst hr
    exact Grows.trans h (Ends.grows (ih1 (by simp) hsg))
  · intro sg y ys pos nd rest f s _ ih1 _ _ s0 h
    trivial

end Verif.Parser.Recovery
