import Verif.Proof.RecoveryOff

/-! # Without a solver the single path does not matter -/

set_option linter.unusedSectionVars false

namespace Verif.Parser.Recovery

open Spec Spec.Recovery

variable {σ L T : Type} {eps : T} {ps : List (Production T)} {cand : T → T → List (List T)}
  {tokens : List (Token L T)}

theorem answer_none (pos : Nat) (sg sg' : Bool) (fps : List (FailedProduction L T)) (s : σ) :
    answer none tokens pos sg fps s = answer none tokens pos sg' fps s := by
  unfold answer
  cases sg <;> cases sg' <;> rfl

mutual
theorem choice_flag {x : T} {pos : Nat} {outs : List (List T)} {sg : Bool} {s : σ}
    {r : Outcome σ (Derived L T) (FailedSymbol L T)} (sg' : Bool) :
    Choice eps ps cand none tokens x pos outs sg s r → Choice eps ps cand none tokens x pos outs sg' s r
  | .derived _ _ _ _ _ _ _ h => .derived _ _ _ _ _ _ _ (alts_flag _ h)
  | .panicked _ _ _ _ _ h => .panicked _ _ _ _ _ (alts_flag _ h)
  | .fixed _ _ _ _ _ _ _ _ _ h ha => .fixed _ _ _ _ _ _ _ _ _ (alts_flag _ h) (answer_none _ _ sg' _ _ ▸ ha)
  | .failed _ _ _ _ _ _ _ _ h ha => .failed _ _ _ _ _ _ _ _ (alts_flag _ h) (answer_none _ _ sg' _ _ ▸ ha)
  | .solverPanics _ _ _ _ _ _ _ _ h ha =>
      .solverPanics _ _ _ _ _ _ _ _ (alts_flag _ h) (answer_none _ _ sg' _ _ ▸ ha)
theorem alts_flag {x : T} {pos : Nat} {outs : List (List T)} {sg : Bool} {s : σ}
    {r : Outcome σ (Derived L T) (List (FailedProduction L T))} (sg' : Bool) :
    Alts eps ps cand none tokens x pos sg outs s r → Alts eps ps cand none tokens x pos sg' outs s r
  | .none _ _ _ _ => .none _ _ _ _
  | .node _ _ _ _ _ _ _ _ _ h => .node _ _ _ _ _ _ _ _ _ (seq_flag _ h)
  | .fixed _ _ _ _ _ _ _ _ _ h hf => .fixed _ _ _ _ _ _ _ _ _ (seq_flag _ h) hf
  | .next _ _ _ _ _ _ _ _ _ _ h1 h2 => .next _ _ _ _ _ _ _ _ _ _ (seq_flag _ h1) (alts_flag _ h2)
  | .panicked _ _ _ _ _ _ h => .panicked _ _ _ _ _ _ (seq_flag _ h)
theorem seq_flag {xs : List T} {pos : Nat} {sg : Bool} {s : σ} {r : SeqOutcome σ L T} (sg' : Bool) :
    Seq eps ps cand none tokens sg xs pos s r → Seq eps ps cand none tokens sg' xs pos s r
  | .nil _ _ _ => .nil _ _ _
  | .eps _ _ _ _ _ h => .eps _ _ _ _ _ (seq_flag _ h)
  | .terminal _ _ _ _ _ _ h1 h2 h3 h4 => .terminal _ _ _ _ _ _ h1 h2 h3 (seq_flag _ h4)
  | .mismatch _ _ _ _ _ h1 h2 h3 => .mismatch _ _ _ _ _ h1 h2 h3
  | .runsOut _ _ _ _ _ h1 h2 => .runsOut _ _ _ _ _ h1 h2
  | .nonTerminal _ _ _ _ _ _ _ _ _ _ _ _ h1 h2 h3 h4 h5 =>
      .nonTerminal _ _ _ _ _ _ _ _ _ _ _ _ h1 h2 (choice_flag _ h3) (seq_flag _ h4) (resume_flag _ h5)
  | .fixed _ _ _ _ _ _ _ _ _ _ h1 h2 h3 h4 =>
      .fixed _ _ _ _ _ _ _ _ _ _ h1 h2 (choice_flag _ h3) (seq_flag _ h4)
  | .failed _ _ _ _ _ _ _ _ h1 h2 h3 => .failed _ _ _ _ _ _ _ _ h1 h2 (choice_flag _ h3)
  | .panicked _ _ _ _ _ _ h1 h2 h3 => .panicked _ _ _ _ _ _ h1 h2 (choice_flag _ h3)
theorem resume_flag {sg : Bool} {x : T} {xs : List T} {pos : Nat} {n : Node L T} {rest : List (List T)}
    {r r' : SeqOutcome σ L T} (sg' : Bool) :
    Resume eps ps cand none tokens sg x xs pos n rest r r' →
    Resume eps ps cand none tokens sg' x xs pos n rest r r'
  | .found _ _ _ _ _ _ _ _ _ => .found _ _ _ _ _ _ _ _ _
  | .panicked _ _ _ _ _ _ => .panicked _ _ _ _ _ _
  | .again _ _ _ _ _ _ _ _ _ _ _ _ _ _ h1 h2 h3 =>
      .again _ _ _ _ _ _ _ _ _ _ _ _ _ _ (choice_flag _ h1) (seq_flag _ h2) (resume_flag _ h3)
  | .gaveUp _ _ _ _ _ _ _ _ _ _ h1 => .gaveUp _ _ _ _ _ _ _ _ _ _ (choice_flag _ h1)
  | .fixDropped _ _ _ _ _ _ _ _ _ _ _ h1 => .fixDropped _ _ _ _ _ _ _ _ _ _ _ (choice_flag _ h1)
  | .retryPanics _ _ _ _ _ _ _ _ h1 => .retryPanics _ _ _ _ _ _ _ _ (choice_flag _ h1)
end

theorem choice_off {solver : Option (Solver σ L T)} (solver' : Option (Solver σ L T)) {x : T} {pos : Nat}
    {outs : List (List T)} {s : σ} {r : Outcome σ (Derived L T) (FailedSymbol L T)}
    (h : Choice eps ps cand solver tokens x pos outs false s r) :
    Choice eps ps cand solver' tokens x pos outs false s r ∧ Keeps s r := by
  cases h with
  | derived _ _ _ _ _ _ _ h =>
    obtain ⟨h1, h2⟩ := alts_off solver' h
    exact ⟨.derived _ _ _ _ _ _ _ h1, h2⟩
  | panicked _ _ _ _ _ h => exact ⟨.panicked _ _ _ _ _ (alts_off solver' h).1, trivial⟩
  | fixed _ _ _ _ _ _ _ _ _ h ha => rw [answer_off] at ha; simp at ha
  | failed _ _ _ _ _ _ _ _ h ha =>
    obtain ⟨h1, h2⟩ := alts_off solver' h
    rw [answer_off] at ha
    simp only [Out.ok.injEq, Prod.mk.injEq, true_and] at ha
    subst ha
    exact ⟨.failed _ _ _ _ _ _ _ _ h1 (answer_off _ _ _ _), h2⟩
  | solverPanics _ _ _ _ _ _ _ _ h ha => rw [answer_off] at ha; simp at ha

/-- Off the single path the search is the one without a solver. -/
theorem choice_off_iff {solver : Option (Solver σ L T)} {x : T} {pos : Nat} {outs : List (List T)} {s : σ}
    {r : Outcome σ (Derived L T) (FailedSymbol L T)} :
    Choice eps ps cand solver tokens x pos outs false s r ↔
    Choice eps ps cand none tokens x pos outs true s r :=
  ⟨fun h => choice_flag true (choice_off none h).1, fun h => (choice_off solver (choice_flag false h)).1⟩

/-- What the search for the one non-terminal of an output gives for the output. -/
def unitOut : Outcome σ (Derived L T) (FailedSymbol L T) → SeqOutcome σ L T
  | .found (.node n q _) s => .found ([.ok n], q) s
  | .found (.fixed fs q) s => .found ([.fix fs], q) s
  | .failed f s => .failed (f, []) s
  | .panicked => .panicked

theorem seq_unit {solver : Option (Solver σ L T)} {sg : Bool} {x : T} {pos : Nat} {s : σ} {t : Token L T}
    {r : SeqOutcome σ L T} (hx : IsNonTerminal ps x) (hne : x ≠ eps) (ht : tokens[pos]? = some t) :
    Seq eps ps cand solver tokens sg [x] pos s r ↔
    ∃ o, Choice eps ps cand solver tokens x pos (cand x t.tType) sg s o ∧ r = unitOut o := by
  constructor
  · intro h
    cases h with
    | eps => exact absurd rfl hne
    | terminal _ _ _ _ _ _ h1 => exact absurd hx h1
    | mismatch _ _ _ _ _ h1 => exact absurd hx h1
    | runsOut _ _ _ _ _ _ h2 => rw [ht] at h2; simp at h2
    | nonTerminal _ _ _ _ _ _ t' _ _ _ _ _ _ h2 h3 h4 h5 =>
      rw [ht] at h2; cases h2
      cases h4
      cases h5
      exact ⟨_, h3, rfl⟩
    | fixed _ _ _ _ _ _ t' _ _ _ _ h2 h3 h4 =>
      rw [ht] at h2; cases h2
      cases h4
      exact ⟨_, h3, rfl⟩
    | failed _ _ _ _ _ _ _ _ _ h2 h3 =>
      rw [ht] at h2; cases h2
      exact ⟨_, h3, rfl⟩
    | panicked _ _ _ _ _ _ _ h2 h3 =>
      rw [ht] at h2; cases h2
      exact ⟨_, h3, rfl⟩
  · rintro ⟨o, h, rfl⟩
    match o with
    | .found (.node n q rest) s1 =>
      exact .nonTerminal _ _ _ _ _ _ _ _ _ _ _ _ hx ht h (.nil _ _ _) (.found _ _ _ _ _ _ _ _ _)
    | .found (.fixed fs q) s1 => exact .fixed _ _ _ _ _ _ _ _ _ _ hx ht h (.nil _ _ _)
    | .failed f s1 => exact .failed _ _ _ _ _ _ _ _ hx ht h
    | .panicked => exact .panicked _ _ _ _ _ _ hx ht h

/-- The candidate that is the one non-terminal `x`, tried before the candidates `outs`. -/
theorem alts_unit {solver : Option (Solver σ L T)} {sg : Bool} {x x0 : T} {pos : Nat} {s : σ}
    {t : Token L T} {outs : List (List T)} {r : Outcome σ (Derived L T) (List (FailedProduction L T))}
    (hx : IsNonTerminal ps x) (hne : x ≠ eps) (ht : tokens[pos]? = some t) :
    Alts eps ps cand solver tokens x0 pos sg ([x] :: outs) s r ↔
    ∃ o, Choice eps ps cand solver tokens x pos (cand x t.tType) sg s o ∧
      match o with
      | .found (.node n q _) s1 => r = .found (.node (.mk [n] ⟨none, x0⟩) q outs) s1
      | .found (.fixed fs q) s1 => r = .found (.fixed (.mk (.mk [.fixed fs]) x0) q) s1
      | .failed f s1 => ∃ r', Alts eps ps cand solver tokens x0 pos sg outs s1 r' ∧
          r = consFailed (.mk f [] []) r'
      | .panicked => r = .panicked := by
  constructor
  · intro h
    cases h with
    | node _ _ _ _ _ _ _ ns q h =>
      obtain ⟨o, ho, e⟩ := (seq_unit hx hne ht).1 h
      refine ⟨o, ho, ?_⟩
      match o, e with
      | .found (.node n q' rest) s1, e =>
        simp only [unitOut, Outcome.found.injEq, Prod.mk.injEq] at e
        obtain ⟨⟨e1, rfl⟩, rfl⟩ := e
        cases ns with
        | nil => simp at e1
        | cons m ns =>
          simp only [List.map_cons, List.cons.injEq, ProductionParsedSymbol.ok.injEq,
            List.map_eq_nil_iff] at e1
          obtain ⟨rfl, rfl⟩ := e1
          rfl
      | .found (.fixed fs q') s1, e =>
        simp only [unitOut, Outcome.found.injEq, Prod.mk.injEq] at e
        obtain ⟨⟨e1, rfl⟩, rfl⟩ := e
        cases ns with
        | nil => simp at e1
        | cons m ns => simp at e1
      | .failed f s1, e => simp [unitOut] at e
      | .panicked, e => simp [unitOut] at e
    | fixed _ _ _ _ _ _ _ l q h hf =>
      obtain ⟨o, ho, e⟩ := (seq_unit hx hne ht).1 h
      refine ⟨o, ho, ?_⟩
      match o, e with
      | .found (.node n q' rest) s1, e =>
        simp only [unitOut, Outcome.found.injEq, Prod.mk.injEq] at e
        obtain ⟨⟨rfl, rfl⟩, rfl⟩ := e
        simp at hf
      | .found (.fixed fs q') s1, e =>
        simp only [unitOut, Outcome.found.injEq, Prod.mk.injEq] at e
        obtain ⟨⟨rfl, rfl⟩, rfl⟩ := e
        rfl
      | .failed f s1, e => simp [unitOut] at e
      | .panicked, e => simp [unitOut] at e
    | next _ _ _ _ _ _ _ f l r' h h' =>
      obtain ⟨o, ho, e⟩ := (seq_unit hx hne ht).1 h
      refine ⟨o, ho, ?_⟩
      match o, e with
      | .found (.node n q' rest) s1, e => simp [unitOut] at e
      | .found (.fixed fs q') s1, e => simp [unitOut] at e
      | .failed f s1, e =>
        simp only [unitOut, Outcome.failed.injEq, Prod.mk.injEq] at e
        obtain ⟨⟨rfl, rfl⟩, rfl⟩ := e
        exact ⟨_, h', rfl⟩
      | .panicked, e => simp [unitOut] at e
    | panicked _ _ _ _ _ _ h =>
      obtain ⟨o, ho, e⟩ := (seq_unit hx hne ht).1 h
      refine ⟨o, ho, ?_⟩
      match o, e with
      | .found (.node n q' rest) s1, e => simp [unitOut] at e
      | .found (.fixed fs q') s1, e => simp [unitOut] at e
      | .failed f s1, e => simp [unitOut] at e
      | .panicked, e => rfl
  · rintro ⟨o, ho, e⟩
    match o, e with
    | .found (.node n q rest) s1, e =>
      rw [e]
      exact .node _ _ _ _ _ _ _ [n] _ ((seq_unit hx hne ht).2 ⟨_, ho, rfl⟩)
    | .found (.fixed fs q) s1, e =>
      rw [e]
      exact .fixed _ _ _ _ _ _ _ [.fix fs] _ ((seq_unit hx hne ht).2 ⟨_, ho, rfl⟩) ⟨fs, by simp⟩
    | .failed f s1, e =>
      obtain ⟨r', hr', rfl⟩ := e
      exact .next _ _ _ _ _ _ _ f [] _ ((seq_unit hx hne ht).2 ⟨_, ho, rfl⟩) hr'
    | .panicked, e =>
      rw [e]
      exact .panicked _ _ _ _ _ _ ((seq_unit hx hne ht).2 ⟨_, ho, rfl⟩)

/-- A choice in terms of its candidates and the answer of the solver. -/
theorem choice_iff {solver : Option (Solver σ L T)} {sg : Bool} {x : T} {pos : Nat} {s : σ}
    {outs : List (List T)} {o : Outcome σ (Derived L T) (FailedSymbol L T)} :
    Choice eps ps cand solver tokens x pos outs sg s o ↔
    ∃ r, Alts eps ps cand solver tokens x pos (sg && decide (outs.length = 1)) outs s r ∧
      match r with
      | .found d s1 => o = .found d s1
      | .panicked => o = .panicked
      | .failed fps s1 =>
        match answer solver tokens pos sg fps s1 with
        | .ok (some fr, s2) => o = .found (.fixed (.mk fr.production x) fr.finalTokenPosition) s2
        | .ok (none, s2) => o = .failed (.mk fps x) s2
        | .panic _ => o = .panicked
        | .fuel => False := by
  constructor
  · intro h
    cases h with
    | derived _ _ _ _ _ _ _ h => exact ⟨_, h, rfl⟩
    | panicked _ _ _ _ _ h => exact ⟨_, h, rfl⟩
    | fixed _ _ _ _ _ _ _ _ _ h ha => exact ⟨_, h, by simp [ha]⟩
    | failed _ _ _ _ _ _ _ _ h ha => exact ⟨_, h, by simp [ha]⟩
    | solverPanics _ _ _ _ _ _ _ _ h ha => exact ⟨_, h, by simp [ha]⟩
  · rintro ⟨r, h, e⟩
    match r, e with
    | .found d s1, e => rw [e]; exact .derived _ _ _ _ _ _ _ h
    | .panicked, e => rw [e]; exact .panicked _ _ _ _ _ h
    | .failed fps s1, e =>
      simp only at e
      split at e
      · rename_i ha; rw [e]; exact .fixed _ _ _ _ _ _ _ _ _ h ha
      · rename_i ha; rw [e]; exact .failed _ _ _ _ _ _ _ _ h ha
      · rename_i ha; rw [e]; exact .solverPanics _ _ _ _ _ _ _ _ h ha
      · exact e.elim

end Verif.Parser.Recovery
