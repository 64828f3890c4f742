import Verif.Proof.Recovery

/-! # Tokens behind the input that no terminal matches -/

set_option linter.unusedSectionVars false

namespace Verif.Parser.Recovery

open Spec Spec.Recovery

variable {σ L T : Type} [DecidableEq T] {eps init : T} {ps : List (Production T)}
  {tokens tokens' : List (Token L T)} {cand : T → T → List (List T)} {k : Nat}

/-- `tokens'` begins with the tokens `tokens`, `k` in number, and the next token is no terminal of the grammar. -/
structure Junk (eps : T) (ps : List (Production T)) (tokens tokens' : List (Token L T)) (k : Nat) : Prop where
  same : ∀ i < k, tokens'[i]? = tokens[i]?
  ends : tokens[k]? = none
  junk : ∀ t, tokens'[k]? = some t → ∀ p ∈ ps, ∀ x ∈ p.output, ¬ IsNonTerminal ps x → x ≠ eps → t.tType ≠ x

/-- What is known of an outcome for a non-terminal. -/
def WithinD (k : Nat) (outs : List (List T)) {β : Type} : Outcome σ (Derived L T) β → Prop
  | .found (.node _ q rest) _ => q ≤ k ∧ ∀ o ∈ rest, o ∈ outs
  | .found (.fixed _ _) _ => False
  | .failed _ _ => True
  | .panicked => False

/-- What is known of an outcome for a sequence of symbols. -/
def WithinS (k : Nat) : SeqOutcome σ L T → Prop
  | .found (l, q) _ => q ≤ k ∧ ∀ fs, ProductionParsedSymbol.fix fs ∉ l
  | .failed _ _ => True
  | .panicked => False

theorem Junk.fwd (hj : Junk eps ps tokens tokens' k) {pos : Nat} {t : Token L T} (hpos : pos ≤ k)
    (h : tokens[pos]? = some t) : tokens'[pos]? = some t ∧ pos + 1 ≤ k := by
  have : pos ≠ k := by rintro rfl; rw [hj.ends] at h; simp at h
  exact ⟨by rw [hj.same pos (by omega)]; exact h, by omega⟩

mutual
theorem choice_append (hcand : ∀ x a out, out ∈ cand x a → (⟨x, out⟩ : Production T) ∈ ps)
    (hj : Junk eps ps tokens tokens' k) {x : T} {pos : Nat}
    {outs : List (List T)} {sg : Bool} {s : σ} {r : Outcome σ (Derived L T) (FailedSymbol L T)} :
    Choice eps ps cand none tokens x pos outs sg s r → pos ≤ k →
    (∀ o ∈ outs, (⟨x, o⟩ : Production T) ∈ ps) → r ≠ .panicked →
    Choice eps ps cand none tokens' x pos outs sg s r ∧ WithinD k outs r
  | .derived x pos outs sg s s' d h, hpos, ho, hr => by
    obtain ⟨h1, h2⟩ := alts_append hcand hj h hpos ho (by simp)
    refine ⟨.derived _ _ _ _ _ _ _ h1, ?_⟩
    cases d <;> exact h2
  | .panicked x pos outs sg s h, hpos, ho, hr => absurd rfl hr
  | .fixed x pos outs sg s s1 s2 fps r h ha, hpos, ho, hr => by simp [answer] at ha
  | .failed x pos outs sg s s1 s2 fps h ha, hpos, ho, hr => by
    obtain ⟨h1, h2⟩ := alts_append hcand hj h hpos ho (by simp)
    exact ⟨.failed _ _ _ _ _ _ _ _ h1 (by simpa [answer] using ha), trivial⟩
  | .solverPanics x pos outs sg s s1 fps e h ha, hpos, ho, hr => by simp [answer] at ha
theorem alts_append (hcand : ∀ x a out, out ∈ cand x a → (⟨x, out⟩ : Production T) ∈ ps)
    (hj : Junk eps ps tokens tokens' k) {x : T} {pos : Nat}
    {outs : List (List T)} {sg : Bool} {s : σ}
    {r : Outcome σ (Derived L T) (List (FailedProduction L T))} :
    Alts eps ps cand none tokens x pos sg outs s r → pos ≤ k →
    (∀ o ∈ outs, (⟨x, o⟩ : Production T) ∈ ps) → r ≠ .panicked →
    Alts eps ps cand none tokens' x pos sg outs s r ∧ WithinD k outs r
  | .none x pos sg s, hpos, ho, hr => ⟨.none _ _ _ _, trivial⟩
  | .node x pos sg out outs s s' ns q h, hpos, ho, hr => by
    obtain ⟨h1, h2, _⟩ := seq_append hcand hj h hpos ⟨_, ho out (by simp), [], rfl⟩ (by simp)
    exact ⟨.node _ _ _ _ _ _ _ _ _ h1, h2, by simp +contextual⟩
  | .fixed x pos sg out outs s s' l q h hf, hpos, ho, hr => by
    obtain ⟨h1, h2, h3⟩ := seq_append hcand hj h hpos ⟨_, ho out (by simp), [], rfl⟩ (by simp)
    obtain ⟨fs, hfs⟩ := hf
    exact absurd hfs (h3 fs)
  | .next x pos sg out outs s s' f l r h h', hpos, ho, hr => by
    have ih := seq_append hcand hj h hpos ⟨_, ho out (by simp), [], rfl⟩ (by simp)
    have ih' := alts_append hcand hj h' hpos (fun o h => ho o (by simp [h]))
      (by rintro rfl; exact hr rfl)
    refine ⟨.next _ _ _ _ _ _ _ _ _ _ ih.1 ih'.1, ?_⟩
    have h3 := ih'.2
    rcases r with ⟨d | d, s⟩ | _ | _
    · obtain ⟨h4, h5⟩ := h3
      exact ⟨h4, fun o ho => by simp [h5 o ho]⟩
    · exact h3
    · trivial
    · exact h3
  | .panicked x pos sg out outs s h, hpos, ho, hr => absurd rfl hr
theorem seq_append (hcand : ∀ x a out, out ∈ cand x a → (⟨x, out⟩ : Production T) ∈ ps)
    (hj : Junk eps ps tokens tokens' k) {xs : List T} {pos : Nat}
    {sg : Bool} {s : σ} {r : SeqOutcome σ L T} :
    Seq eps ps cand none tokens sg xs pos s r → pos ≤ k →
    (∃ p ∈ ps, xs <:+ p.output) → r ≠ .panicked →
    Seq eps ps cand none tokens' sg xs pos s r ∧ WithinS k r
  | .nil sg pos s, hpos, ho, hr => ⟨.nil _ _ _, hpos, by simp⟩
  | .eps sg xs pos s r h, hpos, ho, hr => by
    have ih := seq_append hcand hj h hpos
    obtain ⟨p, hp, hs⟩ := ho
    obtain ⟨h1, h2⟩ := ih ⟨p, hp, (List.suffix_cons _ _).trans hs⟩ (by rintro rfl; exact hr rfl)
    refine ⟨.eps _ _ _ _ _ h1, ?_⟩
    rcases r with ⟨⟨l, q⟩, s⟩ | ⟨⟨f, l⟩, s⟩ | _
    · exact ⟨h2.1, by simpa using h2.2⟩
    · trivial
    · exact h2
  | .terminal sg xs pos s t r hnt hne ht h, hpos, ho, hr => by
    have ih := fun hp => seq_append hcand hj h (pos := pos + 1) hp
    obtain ⟨p, hp, hs⟩ := ho
    obtain ⟨ht', hk⟩ := hj.fwd hpos ht
    obtain ⟨h1, h2⟩ := ih hk ⟨p, hp, (List.suffix_cons _ _).trans hs⟩ (by rintro rfl; exact hr rfl)
    refine ⟨.terminal _ _ _ _ _ _ hnt hne ht' h1, ?_⟩
    rcases r with ⟨⟨l, q⟩, s⟩ | ⟨⟨f, l⟩, s⟩ | _
    · exact ⟨h2.1, by simpa using h2.2⟩
    · trivial
    · exact h2
  | .mismatch sg x xs pos s hnt hne hm, hpos, ho, hr => by
    refine ⟨.mismatch _ _ _ _ _ hnt hne ?_, trivial⟩
    intro t ht
    rcases Nat.lt_or_eq_of_le hpos with h1 | rfl
    · exact hm t (by rw [← hj.same pos h1]; exact ht)
    · obtain ⟨p, hp, hs⟩ := ho
      exact hj.junk t ht p hp x (hs.subset (by simp)) hnt hne
  | .runsOut sg x xs pos s hnt ht, hpos, ho, hr => absurd rfl hr
  | .nonTerminal sg x xs pos s s1 t n q rest r r' hnt ht hc hs hre, hpos, ho, hr => by
    have ihc := choice_append hcand hj hc hpos (fun o h => hcand _ _ _ h) (by simp)
    have ihs := fun hkk => seq_append hcand hj hs (pos := q) hkk
    have ihr := fun h1 h2 h3 => resume_append hcand hj hre hpos h1 h2 h3 hr
    obtain ⟨p, hp, hsf⟩ := ho
    obtain ⟨h1, h2, h3⟩ := ihc
    have hne : r ≠ .panicked := by
      rintro rfl
      cases hre
      exact hr rfl
    have hsx : ∃ p ∈ ps, xs <:+ p.output := ⟨p, hp, (List.suffix_cons _ _).trans hsf⟩
    obtain ⟨h4, h5⟩ := ihs h2 hsx hne
    obtain ⟨h6, h7⟩ := ihr (fun o ho => hcand _ _ _ (h3 o ho)) hsx h5
    exact ⟨.nonTerminal _ _ _ _ _ _ t _ _ _ _ _ hnt (hj.fwd hpos ht).1 h1 h4 h6, h7⟩
  | .fixed sg x xs pos s s1 t fs q r hnt ht hc hs, hpos, ho, hr =>
    (choice_append hcand hj hc hpos (fun o h => hcand _ _ _ h) (by simp)).2.elim
  | .failed sg x xs pos s s1 t f hnt ht hc, hpos, ho, hr => by
    have ihc := choice_append hcand hj hc hpos (fun o h => hcand _ _ _ h) (by simp)
    exact ⟨.failed _ _ _ _ _ _ t _ hnt (hj.fwd hpos ht).1 ihc.1, trivial⟩
  | .panicked sg x xs pos s t hnt ht hc, hpos, ho, hr => absurd rfl hr
theorem resume_append (hcand : ∀ x a out, out ∈ cand x a → (⟨x, out⟩ : Production T) ∈ ps)
    (hj : Junk eps ps tokens tokens' k) {x : T} {xs : List T}
    {pos : Nat} {sg : Bool} {n : Node L T} {rest : List (List T)} {r r' : SeqOutcome σ L T} :
    Resume eps ps cand none tokens sg x xs pos n rest r r' → pos ≤ k →
    (∀ o ∈ rest, (⟨x, o⟩ : Production T) ∈ ps) → (∃ p ∈ ps, xs <:+ p.output) → WithinS k r →
    r' ≠ .panicked →
    Resume eps ps cand none tokens' sg x xs pos n rest r r' ∧ WithinS k r'
  | .found sg x xs pos n rest l q s, hpos, ho, hx, hw, hr =>
    ⟨.found _ _ _ _ _ _ _ _ _, hw.1, by simpa using hw.2⟩
  | .panicked sg x xs pos n rest, hpos, ho, hx, hw, hr => absurd rfl hr
  | .again sg x xs pos n n' rest rest' f s s1 q r r' hc hs hre, hpos, ho, hx, hw, hr => by
    have ihc := choice_append hcand hj hc hpos ho (by simp)
    have ihs := fun hkk => seq_append hcand hj hs (pos := q) hkk
    have ihr := fun h1 h2 h3 => resume_append hcand hj hre hpos h1 h2 h3 hr
    obtain ⟨h1, h2, h3⟩ := ihc
    have hne : r ≠ .panicked := by
      rintro rfl
      cases hre
      exact hr rfl
    obtain ⟨h4, h5⟩ := ihs h2 hx hne
    obtain ⟨h6, h7⟩ := ihr (fun o ho' => ho o (h3 o ho')) hx h5
    exact ⟨.again _ _ _ _ _ _ _ _ _ _ _ _ _ _ h1 h4 h6, h7⟩
  | .gaveUp sg x xs pos n rest f s s1 f' hc, hpos, ho, hx, hw, hr =>
    ⟨.gaveUp _ _ _ _ _ _ _ _ _ _ (choice_append hcand hj hc hpos ho (by simp)).1, trivial⟩
  | .fixDropped sg x xs pos n rest f s s1 fs q hc, hpos, ho, hx, hw, hr =>
    (choice_append hcand hj hc hpos ho (by simp)).2.elim
  | .retryPanics sg x xs pos n rest f s hc, hpos, ho, hx, hw, hr => absurd rfl hr
end

/-! ## Back: a search on the longer input is one on the shorter input, or that one panics -/

/-- In either direction the outcome is the same, or a panic. -/
def Same (P : Outcome σ α β → Prop) (W : Outcome σ α β → Prop) (r : Outcome σ α β) : Prop :=
  (P r ∧ W r) ∨ P .panicked

theorem Junk.back (hj : Junk eps ps tokens tokens' k) {pos : Nat} {t : Token L T} (hpos : pos ≤ k)
    (h : tokens'[pos]? = some t) : tokens[pos]? = some t ∨ tokens[pos]? = none := by
  rcases Nat.lt_or_eq_of_le hpos with h1 | rfl
  · exact .inl (by rw [← hj.same pos h1]; exact h)
  · exact .inr hj.ends

theorem Junk.back_none (hj : Junk eps ps tokens tokens' k) {pos : Nat} (hpos : pos ≤ k)
    (h : tokens'[pos]? = none) : tokens[pos]? = none := by
  rcases Nat.lt_or_eq_of_le hpos with h1 | rfl
  · rw [← hj.same pos h1]; exact h
  · exact hj.ends

mutual
theorem choice_remove (hcand : ∀ x a out, out ∈ cand x a → (⟨x, out⟩ : Production T) ∈ ps)
    (hj : Junk eps ps tokens tokens' k) {x : T} {pos : Nat}
    {outs : List (List T)} {sg : Bool} {s : σ} {r : Outcome σ (Derived L T) (FailedSymbol L T)} :
    Choice eps ps cand none tokens' x pos outs sg s r → pos ≤ k →
    (∀ o ∈ outs, (⟨x, o⟩ : Production T) ∈ ps) →
    Same (Choice eps ps cand none tokens x pos outs sg s) (WithinD k outs) r
  | .derived x pos outs sg s s' d h, hpos, ho => by
    rcases alts_remove hcand hj h hpos ho with ⟨h1, h2⟩ | h1
    · refine .inl ⟨.derived _ _ _ _ _ _ _ h1, ?_⟩
      cases d <;> exact h2
    · exact .inr (.panicked _ _ _ _ _ h1)
  | .panicked x pos outs sg s h, hpos, ho => by
    rcases alts_remove hcand hj h hpos ho with ⟨h1, h2⟩ | h1
    · exact .inr (.panicked _ _ _ _ _ h1)
    · exact .inr (.panicked _ _ _ _ _ h1)
  | .fixed x pos outs sg s s1 s2 fps r h ha, hpos, ho => by simp [answer] at ha
  | .failed x pos outs sg s s1 s2 fps h ha, hpos, ho => by
    rcases alts_remove hcand hj h hpos ho with ⟨h1, h2⟩ | h1
    · exact .inl ⟨.failed _ _ _ _ _ _ _ _ h1 (by simpa [answer] using ha), trivial⟩
    · exact .inr (.panicked _ _ _ _ _ h1)
  | .solverPanics x pos outs sg s s1 fps e h ha, hpos, ho => by simp [answer] at ha
theorem alts_remove (hcand : ∀ x a out, out ∈ cand x a → (⟨x, out⟩ : Production T) ∈ ps)
    (hj : Junk eps ps tokens tokens' k) {x : T} {pos : Nat}
    {outs : List (List T)} {sg : Bool} {s : σ}
    {r : Outcome σ (Derived L T) (List (FailedProduction L T))} :
    Alts eps ps cand none tokens' x pos sg outs s r → pos ≤ k →
    (∀ o ∈ outs, (⟨x, o⟩ : Production T) ∈ ps) →
    Same (Alts eps ps cand none tokens x pos sg outs s) (WithinD k outs) r
  | .none x pos sg s, hpos, ho => .inl ⟨.none _ _ _ _, trivial⟩
  | .node x pos sg out outs s s' ns q h, hpos, ho => by
    rcases seq_remove hcand hj h hpos ⟨_, ho out (by simp), [], rfl⟩ with ⟨h1, h2, _⟩ | h1
    · exact .inl ⟨.node _ _ _ _ _ _ _ _ _ h1, h2, by simp +contextual⟩
    · exact .inr (.panicked _ _ _ _ _ _ h1)
  | .fixed x pos sg out outs s s' l q h hf, hpos, ho => by
    rcases seq_remove hcand hj h hpos ⟨_, ho out (by simp), [], rfl⟩ with ⟨h1, h2, h3⟩ | h1
    · obtain ⟨fs, hfs⟩ := hf
      exact absurd hfs (h3 fs)
    · exact .inr (.panicked _ _ _ _ _ _ h1)
  | .next x pos sg out outs s s' f l r h h', hpos, ho => by
    have ih := seq_remove hcand hj h hpos ⟨_, ho out (by simp), [], rfl⟩
    have ih' := alts_remove hcand hj h' hpos (fun o h => ho o (by simp [h]))
    rcases ih with ⟨h1, _⟩ | h1
    · rcases ih' with ⟨h2, h3⟩ | h2
      · refine .inl ⟨.next _ _ _ _ _ _ _ _ _ _ h1 h2, ?_⟩
        rcases r with ⟨d | d, s⟩ | _ | _
        · obtain ⟨h4, h5⟩ := h3
          exact ⟨h4, fun o ho => by simp [h5 o ho]⟩
        · exact h3
        · trivial
        · exact h3
      · exact .inr (.next _ _ _ _ _ _ _ _ _ .panicked h1 h2)
    · exact .inr (.panicked _ _ _ _ _ _ h1)
  | .panicked x pos sg out outs s h, hpos, ho => by
    rcases seq_remove hcand hj h hpos ⟨_, ho out (by simp), [], rfl⟩ with ⟨h1, _⟩ | h1
    · exact .inr (.panicked _ _ _ _ _ _ h1)
    · exact .inr (.panicked _ _ _ _ _ _ h1)
theorem seq_remove (hcand : ∀ x a out, out ∈ cand x a → (⟨x, out⟩ : Production T) ∈ ps)
    (hj : Junk eps ps tokens tokens' k) {xs : List T} {pos : Nat}
    {sg : Bool} {s : σ} {r : SeqOutcome σ L T} :
    Seq eps ps cand none tokens' sg xs pos s r → pos ≤ k → (∃ p ∈ ps, xs <:+ p.output) →
    Same (Seq eps ps cand none tokens sg xs pos s) (WithinS k) r
  | .nil sg pos s, hpos, ho => .inl ⟨.nil _ _ _, hpos, by simp⟩
  | .eps sg xs pos s r h, hpos, ho => by
    have ih := seq_remove hcand hj h hpos
    obtain ⟨p, hp, hs⟩ := ho
    rcases ih ⟨p, hp, (List.suffix_cons _ _).trans hs⟩ with ⟨h1, h2⟩ | h1
    · refine .inl ⟨.eps _ _ _ _ _ h1, ?_⟩
      rcases r with ⟨⟨l, q⟩, s⟩ | ⟨⟨f, l⟩, s⟩ | _
      · exact ⟨h2.1, by simpa using h2.2⟩
      · trivial
      · exact h2
    · exact .inr (.eps _ _ _ _ .panicked h1)
  | .terminal sg xs pos s t r hnt hne ht h, hpos, ho => by
    have ih := fun hp => seq_remove hcand hj h (pos := pos + 1) hp
    obtain ⟨p, hp, hs⟩ := ho
    rcases hj.back hpos ht with ht' | ht'
    · rcases ih (hj.fwd hpos ht').2 ⟨p, hp, (List.suffix_cons _ _).trans hs⟩ with ⟨h1, h2⟩ | h1
      · refine .inl ⟨.terminal _ _ _ _ _ _ hnt hne ht' h1, ?_⟩
        rcases r with ⟨⟨l, q⟩, s⟩ | ⟨⟨f, l⟩, s⟩ | _
        · exact ⟨h2.1, by simpa using h2.2⟩
        · trivial
        · exact h2
      · exact .inr (.terminal _ _ _ _ _ .panicked hnt hne ht' h1)
    · exfalso
      have : pos = k := by
        rcases Nat.lt_or_eq_of_le hpos with h1 | h1
        · rw [hj.same pos h1, ht'] at ht; simp at ht
        · exact h1
      subst this
      exact hj.junk t ht p hp t.tType (hs.subset (by simp)) hnt hne rfl
  | .mismatch sg x xs pos s hnt hne hm, hpos, ho => by
    refine .inl ⟨.mismatch _ _ _ _ _ hnt hne ?_, trivial⟩
    intro t ht
    exact hm t (hj.fwd hpos ht).1
  | .runsOut sg x xs pos s hnt ht, hpos, ho => .inr (.runsOut _ _ _ _ _ hnt (hj.back_none hpos ht))
  | .nonTerminal sg x xs pos s s1 t n q rest r r' hnt ht hc hs hre, hpos, ho => by
    have ihc := choice_remove hcand hj hc hpos (fun o h => hcand _ _ _ h)
    have ihs := fun hkk => seq_remove hcand hj hs (pos := q) hkk
    have ihr := fun h1 h2 h3 => resume_remove hcand hj hre hpos h1 h2 h3
    obtain ⟨p, hp, hsf⟩ := ho
    rcases hj.back hpos ht with ht' | ht'
    · rcases ihc with ⟨h1, h2, h3⟩ | h1
      · have hsx : ∃ p ∈ ps, xs <:+ p.output := ⟨p, hp, (List.suffix_cons _ _).trans hsf⟩
        rcases ihs h2 hsx with ⟨h4, h5⟩ | h4
        · rcases ihr (fun o ho => hcand _ _ _ (h3 o ho)) hsx h5 with ⟨h6, h7⟩ | h6
          · exact .inl ⟨.nonTerminal _ _ _ _ _ _ t _ _ _ _ _ hnt ht' h1 h4 h6, h7⟩
          · exact .inr (.nonTerminal _ _ _ _ _ _ t _ _ _ _ _ hnt ht' h1 h4 h6)
        · exact .inr (.nonTerminal _ _ _ _ _ _ t _ _ _ _ _ hnt ht' h1 h4 (.panicked _ _ _ _ _ _))
      · exact .inr (.panicked _ _ _ _ _ t hnt ht' h1)
    · exact .inr (.runsOut _ _ _ _ _ hnt ht')
  | .fixed sg x xs pos s s1 t fs q r hnt ht hc hs, hpos, ho => by
    rcases hj.back hpos ht with ht' | ht'
    · rcases choice_remove hcand hj hc hpos (fun o h => hcand _ _ _ h) with ⟨_, h2⟩ | h1
      · exact h2.elim
      · exact .inr (.panicked _ _ _ _ _ t hnt ht' h1)
    · exact .inr (.runsOut _ _ _ _ _ hnt ht')
  | .failed sg x xs pos s s1 t f hnt ht hc, hpos, ho => by
    rcases hj.back hpos ht with ht' | ht'
    · rcases choice_remove hcand hj hc hpos (fun o h => hcand _ _ _ h) with ⟨h1, _⟩ | h1
      · exact .inl ⟨.failed _ _ _ _ _ _ t _ hnt ht' h1, trivial⟩
      · exact .inr (.panicked _ _ _ _ _ t hnt ht' h1)
    · exact .inr (.runsOut _ _ _ _ _ hnt ht')
  | .panicked sg x xs pos s t hnt ht hc, hpos, ho => by
    rcases hj.back hpos ht with ht' | ht'
    · rcases choice_remove hcand hj hc hpos (fun o h => hcand _ _ _ h) with ⟨h1, _⟩ | h1
      · exact .inr (.panicked _ _ _ _ _ t hnt ht' h1)
      · exact .inr (.panicked _ _ _ _ _ t hnt ht' h1)
    · exact .inr (.runsOut _ _ _ _ _ hnt ht')
theorem resume_remove (hcand : ∀ x a out, out ∈ cand x a → (⟨x, out⟩ : Production T) ∈ ps)
    (hj : Junk eps ps tokens tokens' k) {x : T} {xs : List T}
    {pos : Nat} {sg : Bool} {n : Node L T} {rest : List (List T)} {r r' : SeqOutcome σ L T} :
    Resume eps ps cand none tokens' sg x xs pos n rest r r' → pos ≤ k →
    (∀ o ∈ rest, (⟨x, o⟩ : Production T) ∈ ps) → (∃ p ∈ ps, xs <:+ p.output) → WithinS k r →
    Same (Resume eps ps cand none tokens sg x xs pos n rest r) (WithinS k) r'
  | .found sg x xs pos n rest l q s, hpos, ho, hx, hw =>
    .inl ⟨.found _ _ _ _ _ _ _ _ _, hw.1, by simpa using hw.2⟩
  | .panicked sg x xs pos n rest, hpos, ho, hx, hw => .inr (.panicked _ _ _ _ _ _)
  | .again sg x xs pos n n' rest rest' f s s1 q r r' hc hs hre, hpos, ho, hx, hw => by
    have ihc := choice_remove hcand hj hc hpos ho
    have ihs := fun hkk => seq_remove hcand hj hs (pos := q) hkk
    have ihr := fun h1 h2 h3 => resume_remove hcand hj hre hpos h1 h2 h3
    rcases ihc with ⟨h1, h2, h3⟩ | h1
    · rcases ihs h2 hx with ⟨h4, h5⟩ | h4
      · rcases ihr (fun o ho' => ho o (h3 o ho')) hx h5 with ⟨h6, h7⟩ | h6
        · exact .inl ⟨.again _ _ _ _ _ _ _ _ _ _ _ _ _ _ h1 h4 h6, h7⟩
        · exact .inr (.again _ _ _ _ _ _ _ _ _ _ _ _ _ _ h1 h4 h6)
      · exact .inr (.again _ _ _ _ _ _ _ _ _ _ _ _ _ _ h1 h4 (.panicked _ _ _ _ _ _))
    · exact .inr (.retryPanics _ _ _ _ _ _ _ _ h1)
  | .gaveUp sg x xs pos n rest f s s1 f' hc, hpos, ho, hx, hw => by
    rcases choice_remove hcand hj hc hpos ho with ⟨h1, _⟩ | h1
    · exact .inl ⟨.gaveUp _ _ _ _ _ _ _ _ _ _ h1, trivial⟩
    · exact .inr (.retryPanics _ _ _ _ _ _ _ _ h1)
  | .fixDropped sg x xs pos n rest f s s1 fs q hc, hpos, ho, hx, hw => by
    rcases choice_remove hcand hj hc hpos ho with ⟨_, h2⟩ | h1
    · exact h2.elim
    · exact .inr (.retryPanics _ _ _ _ _ _ _ _ h1)
  | .retryPanics sg x xs pos n rest f s hc, hpos, ho, hx, hw => by
    rcases choice_remove hcand hj hc hpos ho with ⟨h1, _⟩ | h1
    · exact .inr (.retryPanics _ _ _ _ _ _ _ _ h1)
    · exact .inr (.retryPanics _ _ _ _ _ _ _ _ h1)
end

end Verif.Parser.Recovery
