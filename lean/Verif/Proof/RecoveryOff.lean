import Verif.Proof.Recovery

/-! # Off the single path the solver does not matter -/

set_option linter.unusedSectionVars false

namespace Verif.Parser.Recovery

open Spec Spec.Recovery

variable {σ L T : Type} {eps : T} {ps : List (Production T)} {cand : T → T → List (List T)}
  {tokens : List (Token L T)}

/-- The solver state behind an outcome is `s` (if there is one). -/
def Keeps {α β : Type} (s : σ) : Outcome σ α β → Prop
  | .found _ s' => s' = s
  | .failed _ s' => s' = s
  | .panicked => True

theorem keeps_cons {s : σ} {a : Part L T} {r : SeqOutcome σ L T} (h : Keeps s r) :
    Keeps s (r.cons a) := by
  match r, h with
  | .found _ _, h => exact h
  | .failed _ _, h => exact h
  | .panicked, _ => trivial

theorem keeps_consFailed {s : σ} {a : FailedProduction L T}
    {r : Outcome σ (Derived L T) (List (FailedProduction L T))} (h : Keeps s r) :
    Keeps s (consFailed a r) := by
  match r, h with
  | .found _ _, h => exact h
  | .failed _ _, h => exact h
  | .panicked, _ => trivial

theorem answer_off (solver : Option (Solver σ L T)) (pos : Nat) (fps : List (FailedProduction L T))
    (s : σ) : answer solver tokens pos false fps s = .ok (none, s) := by
  unfold answer
  cases solver <;> rfl

theorem alts_off {solver : Option (Solver σ L T)} (solver' : Option (Solver σ L T)) {x : T} {pos : Nat}
    {outs : List (List T)} {s : σ} {r : Outcome σ (Derived L T) (List (FailedProduction L T))}
    (h : Alts eps ps cand solver tokens x pos false outs s r) :
    Alts eps ps cand solver' tokens x pos false outs s r ∧ Keeps s r := by
  refine (Alts.rec (eps := eps) (ps := ps) (cand := cand)
    (solver := solver) (tokens := tokens)
    (motive_1 := fun x pos outs sg s r _ => sg = false →
      Choice eps ps cand solver' tokens x pos outs sg s r ∧ Keeps s r)
    (motive_2 := fun x pos sg outs s r _ => sg = false →
      Alts eps ps cand solver' tokens x pos sg outs s r ∧ Keeps s r)
    (motive_3 := fun sg ys q s r _ => sg = false →
      Seq eps ps cand solver' tokens sg ys q s r ∧ Keeps s r)
    (motive_4 := fun sg y ys pos nd rest r0 r1 _ => sg = false →
      Resume eps ps cand solver' tokens sg y ys pos nd rest r0 r1 ∧
      ∀ s, Keeps s r0 → Keeps s r1)
    ?_ ?_ ?_ ?_ ?_ ?_ ?_ ?_ ?_ ?_ ?_ ?_ ?_ ?_ ?_ ?_ ?_ ?_ ?_ ?_ ?_ ?_ ?_ ?_ ?_ h) rfl
  -- Choice
  · intro x pos outs sg s s' d _ ih hsg
    subst hsg
    exact ⟨.derived _ _ _ _ _ _ _ (ih rfl).1, (ih rfl).2⟩
  · intro x pos outs sg s _ ih hsg
    subst hsg
    exact ⟨.panicked _ _ _ _ _ (ih rfl).1, trivial⟩
  · intro x pos outs sg s s1 s2 fps fr _ ha ih hsg
    subst hsg
    rw [answer_off] at ha
    simp at ha
  · intro x pos outs sg s s1 s2 fps _ ha ih hsg
    subst hsg
    rw [answer_off] at ha
    simp only [Out.ok.injEq, Prod.mk.injEq, true_and] at ha
    subst ha
    exact ⟨.failed _ _ _ _ _ _ _ _ (ih rfl).1 (answer_off _ _ _ _), (ih rfl).2⟩
  · intro x pos outs sg s s1 fps e _ ha ih hsg
    subst hsg
    rw [answer_off] at ha
    simp at ha
  -- Alts
  · intro x pos sg s _
    exact ⟨.none _ _ _ _, rfl⟩
  · intro x pos sg out outs s s' ns q _ ih hsg
    exact ⟨.node _ _ _ _ _ _ _ _ _ (ih hsg).1, (ih hsg).2⟩
  · intro x pos sg out outs s s' l q _ hfx ih hsg
    exact ⟨.fixed _ _ _ _ _ _ _ _ _ (ih hsg).1 hfx, (ih hsg).2⟩
  · intro x pos sg out outs s s' f l r _ _ ih1 ih2 hsg
    have h1 : s' = s := (ih1 hsg).2
    subst h1
    exact ⟨.next _ _ _ _ _ _ _ _ _ _ (ih1 hsg).1 (ih2 hsg).1, keeps_consFailed (ih2 hsg).2⟩
  · intro x pos sg out outs s _ ih hsg
    exact ⟨.panicked _ _ _ _ _ _ (ih hsg).1, trivial⟩
  -- Seq
  · intro sg pos s _
    exact ⟨.nil _ _ _, rfl⟩
  · intro sg ys pos s r0 _ ih hsg
    exact ⟨.eps _ _ _ _ _ (ih hsg).1, keeps_cons (ih hsg).2⟩
  · intro sg ys pos s t r0 hy he ht _ ih hsg
    exact ⟨.terminal _ _ _ _ _ _ hy he ht (ih hsg).1, keeps_cons (ih hsg).2⟩
  · intro sg y ys pos s hy he hne _
    exact ⟨.mismatch _ _ _ _ _ hy he hne, rfl⟩
  · intro sg y ys pos s hy ht _
    exact ⟨.runsOut _ _ _ _ _ hy ht, trivial⟩
  · intro sg y ys pos s s1 t nd q rest r0 r1 hy ht _ _ _ ih1 ih2 ih3 hsg
    have h1 : s1 = s := (ih1 hsg).2
    subst h1
    exact ⟨.nonTerminal _ _ _ _ _ _ _ _ _ _ _ _ hy ht (ih1 hsg).1 (ih2 hsg).1 (ih3 hsg).1,
      (ih3 hsg).2 _ (ih2 hsg).2⟩
  · intro sg y ys pos s s1 t fs q r0 hy ht _ _ ih1 ih2 hsg
    have h1 : s1 = s := (ih1 hsg).2
    subst h1
    exact ⟨.fixed _ _ _ _ _ _ _ _ _ _ hy ht (ih1 hsg).1 (ih2 hsg).1, keeps_cons (ih2 hsg).2⟩
  · intro sg y ys pos s s1 t f hy ht _ ih1 hsg
    exact ⟨.failed _ _ _ _ _ _ _ _ hy ht (ih1 hsg).1, (ih1 hsg).2⟩
  · intro sg y ys pos s t hy ht _ ih1 hsg
    exact ⟨.panicked _ _ _ _ _ _ hy ht (ih1 hsg).1, trivial⟩
  -- Resume
  · intro sg y ys pos nd rest l q s _
    exact ⟨.found _ _ _ _ _ _ _ _ _, fun _ h => h⟩
  · intro sg y ys pos nd rest _
    exact ⟨.panicked _ _ _ _ _ _, fun _ h => h⟩
  · intro sg y ys pos nd nd' rest rest' f s s1 q r0 r1 _ _ _ ih1 ih2 ih3 hsg
    refine ⟨.again _ _ _ _ _ _ _ _ _ _ _ _ _ _ (ih1 hsg).1 (ih2 hsg).1 (ih3 hsg).1, ?_⟩
    intro s2 h2
    have h2 : s = s2 := h2
    have h1 : s1 = s := (ih1 hsg).2
    subst h1 h2
    exact (ih3 hsg).2 _ (ih2 hsg).2
  · intro sg y ys pos nd rest f s s1 f' _ ih1 hsg
    refine ⟨.gaveUp _ _ _ _ _ _ _ _ _ _ (ih1 hsg).1, ?_⟩
    intro s2 h2
    have h1 : s1 = s := (ih1 hsg).2
    exact h1.trans h2
  · intro sg y ys pos nd rest f s s1 fs q _ ih1 hsg
    refine ⟨.fixDropped _ _ _ _ _ _ _ _ _ _ _ (ih1 hsg).1, ?_⟩
    intro s2 h2
    have h1 : s1 = s := (ih1 hsg).2
    exact h1.trans h2
  · intro sg y ys pos nd rest f s _ ih1 hsg
    exact ⟨.retryPanics _ _ _ _ _ _ _ _ (ih1 hsg).1, fun _ _ => trivial⟩

/-- One failed production per candidate. -/
theorem alts_length {solver : Option (Solver σ L T)} {x : T} {pos : Nat} {sg : Bool}
    {outs : List (List T)} {s : σ} {r : Outcome σ (Derived L T) (List (FailedProduction L T))}
    (h : Alts eps ps cand solver tokens x pos sg outs s r) :
    ∀ fps s', r = .failed fps s' → fps.length = outs.length := by
  induction outs generalizing s r with
  | nil => cases h; simp
  | cons out outs ih =>
    cases h with
    | node => simp
    | fixed => simp
    | panicked => simp
    | next _ _ _ _ _ _ _ _ _ r _ h2 =>
      match r, h2 with
      | .found _ _, _ => simp [consFailed]
      | .panicked, _ => simp [consFailed]
      | .failed fps s', h2 =>
        simp only [consFailed, Outcome.failed.injEq]
        rintro _ _ ⟨rfl, rfl⟩
        simp [ih h2 _ _ rfl]

/-- Off the single path nothing is fixed. -/
theorem alts_off_node {solver : Option (Solver σ L T)} {x : T} {pos : Nat}
    {outs : List (List T)} {s s' : σ} {fs : FixedSymbol L T} {q : Nat}
    (h : Alts eps ps cand solver tokens x pos false outs s (.found (.fixed fs q) s')) : False := by
  suffices h0 : ∀ r, Alts eps ps cand solver tokens x pos false outs s r →
      ∀ fs q s', r ≠ .found (.fixed fs q) s' from h0 _ h _ _ _ rfl
  intro r h
  refine (Alts.rec (eps := eps) (ps := ps) (cand := cand)
    (solver := solver) (tokens := tokens)
    (motive_1 := fun x pos outs sg s r _ => sg = false → (∀ fs q s', r ≠ .found (.fixed fs q) s'))
    (motive_2 := fun x pos sg outs s r _ => sg = false → (∀ fs q s', r ≠ .found (.fixed fs q) s'))
    (motive_3 := fun sg ys q s r _ => sg = false → ∀ l q s', r = .found (l, q) s' →
      ∀ fs, ProductionParsedSymbol.fix fs ∉ l)
    (motive_4 := fun sg y ys pos nd rest r0 r1 _ => sg = false →
      (∀ l q s', r0 = .found (l, q) s' → ∀ fs, ProductionParsedSymbol.fix fs ∉ l) →
      ∀ l q s', r1 = .found (l, q) s' → ∀ fs, ProductionParsedSymbol.fix fs ∉ l)
    ?_ ?_ ?_ ?_ ?_ ?_ ?_ ?_ ?_ ?_ ?_ ?_ ?_ ?_ ?_ ?_ ?_ ?_ ?_ ?_ ?_ ?_ ?_ ?_ ?_ h) rfl
  -- Choice
  · intro x pos outs sg s s' d _ ih hsg
    subst hsg
    intro fs q s'' e
    simp only [Outcome.found.injEq] at e
    obtain ⟨rfl, rfl⟩ := e
    exact ih rfl _ _ _ rfl
  · intro x pos outs sg s _ ih hsg
    simp
  · intro x pos outs sg s s1 s2 fps fr _ ha ih hsg
    subst hsg
    rw [answer_off] at ha
    simp at ha
  · intro x pos outs sg s s1 s2 fps _ ha ih hsg
    simp
  · intro x pos outs sg s s1 fps e _ ha ih hsg
    simp
  -- Alts
  · intro x pos sg s _
    simp
  · intro x pos sg out outs s s' ns q _ ih hsg
    simp
  · intro x pos sg out outs s s' l q _ hfx ih hsg
    obtain ⟨fs, hfs⟩ := hfx
    exact absurd hfs (ih hsg _ _ _ rfl fs)
  · intro x pos sg out outs s s' f l r _ _ ih1 ih2 hsg
    match r, ih2 with
    | .found _ _, ih2 => exact ih2 hsg
    | .failed _ _, _ => simp [consFailed]
    | .panicked, _ => simp [consFailed]
  · intro x pos sg out outs s _ ih hsg
    simp
  -- Seq
  · intro sg pos s _ l q s' e
    simp only [Outcome.found.injEq, Prod.mk.injEq] at e
    obtain ⟨⟨rfl, rfl⟩, rfl⟩ := e
    simp
  · intro sg ys pos s r0 _ ih hsg l q s' e
    match r0, ih with
    | .found (l0, q0) s0, ih =>
      simp only [SeqOutcome.cons, Outcome.found.injEq, Prod.mk.injEq] at e
      obtain ⟨⟨rfl, rfl⟩, rfl⟩ := e
      simpa using ih hsg _ _ _ rfl
    | .failed _ _, _ => simp [SeqOutcome.cons] at e
    | .panicked, _ => simp [SeqOutcome.cons] at e
  · intro sg ys pos s t r0 hy he ht _ ih hsg l q s' e
    match r0, ih with
    | .found (l0, q0) s0, ih =>
      simp only [SeqOutcome.cons, Outcome.found.injEq, Prod.mk.injEq] at e
      obtain ⟨⟨rfl, rfl⟩, rfl⟩ := e
      simpa using ih hsg _ _ _ rfl
    | .failed _ _, _ => simp [SeqOutcome.cons] at e
    | .panicked, _ => simp [SeqOutcome.cons] at e
  · intro sg y ys pos s hy he hne _
    simp
  · intro sg y ys pos s hy ht _
    simp
  · intro sg y ys pos s s1 t nd q rest r0 r1 hy ht _ _ _ ih1 ih2 ih3 hsg
    exact ih3 hsg (ih2 hsg)
  · intro sg y ys pos s s1 t fs q r0 hy ht _ _ ih1 ih2 hsg
    exact absurd rfl (ih1 hsg _ _ _)
  · intro sg y ys pos s s1 t f hy ht _ ih1 hsg
    simp
  · intro sg y ys pos s t hy ht _ ih1 hsg
    simp
  -- Resume
  · intro sg y ys pos nd rest l q s _ h l' q' s' e
    simp only [Outcome.found.injEq, Prod.mk.injEq] at e
    obtain ⟨⟨rfl, rfl⟩, rfl⟩ := e
    simpa using h _ _ _ rfl
  · intro sg y ys pos nd rest _
    simp
  · intro sg y ys pos nd nd' rest rest' f s s1 q r0 r1 _ _ _ ih1 ih2 ih3 hsg _
    exact ih3 hsg (ih2 hsg)
  · intro sg y ys pos nd rest f s s1 f' _ ih1 hsg
    simp
  · intro sg y ys pos nd rest f s s1 fs q _ ih1 hsg
    simp
  · intro sg y ys pos nd rest f s _ ih1 hsg
    simp

end Verif.Parser.Recovery
