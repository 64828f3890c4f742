import Verif.Proof.Recovery
import Verif.Spec.EndMarker

/-! # The search of an end-marked grammar does not look behind the end marker -/

set_option linter.unusedSectionVars false

namespace Verif.Parser.Recovery

open Spec Spec.Recovery

variable {σ L T : Type} [DecidableEq T] {eps init e : T} {ps : List (Production T)}
  {tokens tokens' : List (Token L T)} {cand : T → T → List (List T)} {k : Nat}

/-- What is known of an outcome for a non-terminal before the end marker. -/
def BeforeD (k : Nat) (outs : List (List T)) (inner : Prop) {β : Type} :
    Outcome σ (Derived L T) β → Prop
  | .found (.node _ q rest) _ => (inner → q ≤ k) ∧ ∀ o ∈ rest, o ∈ outs
  | .found (.fixed _ _) _ => False
  | _ => True

/-- What is known of an outcome for a sequence of symbols before the end marker. -/
def BeforeS (k : Nat) (inner : Prop) : SeqOutcome σ L T → Prop
  | .found (l, q) _ => (inner → q ≤ k) ∧ ∀ fs, ProductionParsedSymbol.fix fs ∉ l
  | _ => True

theorem endMarked_output (hem : EndMarked eps init e ps) {p : Production T} (hp : p ∈ ps) :
    ∃ u, (p.output = u ∨ p.output = u ++ [e]) ∧ e ∉ u ∧ init ∉ u ∧ (p.input ≠ init → p.output = u) := by
  by_cases hx : p.input = init
  · obtain ⟨u, h1, h2⟩ := hem.initial_ends p hp hx
    refine ⟨u, .inr h1, h2, ?_, fun h => absurd hx h⟩
    intro hi
    exact hem.initial_once p hp (by rw [h1]; simp [hi])
  · exact ⟨p.output, .inl rfl, hem.only_there p hp hx, hem.initial_once p hp, fun _ => rfl⟩

mutual
theorem choice_before (hem : EndMarked eps init e ps)
    (hcand : ∀ x a out, out ∈ cand x a → (⟨x, out⟩ : Production T) ∈ ps)
    (hag : ∀ i ≤ k, tokens[i]? = tokens'[i]?)
    (hk : ∀ i ≤ k, ∀ t, tokens[i]? = some t → (t.tType = e ↔ i = k)) {x : T} {pos : Nat}
    {outs : List (List T)} {sg : Bool} {s : σ} {r : Outcome σ (Derived L T) (FailedSymbol L T)} :
    Choice eps ps cand none tokens x pos outs sg s r → pos ≤ k →
    (∀ o ∈ outs, (⟨x, o⟩ : Production T) ∈ ps) →
    Choice eps ps cand none tokens' x pos outs sg s r ∧ BeforeD k outs (x ≠ init) r
  | .derived x pos outs sg s s' d h, hpos, ho => by
    obtain ⟨h1, h2⟩ := alts_before hem hcand hag hk h hpos ho
    refine ⟨.derived _ _ _ _ _ _ _ h1, ?_⟩
    cases d <;> exact h2
  | .panicked x pos outs sg s h, hpos, ho => by
    obtain ⟨h1, h2⟩ := alts_before hem hcand hag hk h hpos ho
    exact ⟨.panicked _ _ _ _ _ h1, trivial⟩
  | .fixed x pos outs sg s s1 s2 fps r h ha, hpos, ho => by simp [answer] at ha
  | .failed x pos outs sg s s1 s2 fps h ha, hpos, ho => by
    obtain ⟨h1, h2⟩ := alts_before hem hcand hag hk h hpos ho
    exact ⟨.failed _ _ _ _ _ _ _ _ h1 (by simpa [answer] using ha), trivial⟩
  | .solverPanics x pos outs sg s s1 fps e h ha, hpos, ho => by simp [answer] at ha
theorem alts_before (hem : EndMarked eps init e ps)
    (hcand : ∀ x a out, out ∈ cand x a → (⟨x, out⟩ : Production T) ∈ ps)
    (hag : ∀ i ≤ k, tokens[i]? = tokens'[i]?)
    (hk : ∀ i ≤ k, ∀ t, tokens[i]? = some t → (t.tType = e ↔ i = k)) {x : T} {pos : Nat}
    {outs : List (List T)} {sg : Bool} {s : σ}
    {r : Outcome σ (Derived L T) (List (FailedProduction L T))} :
    Alts eps ps cand none tokens x pos sg outs s r → pos ≤ k →
    (∀ o ∈ outs, (⟨x, o⟩ : Production T) ∈ ps) →
    Alts eps ps cand none tokens' x pos sg outs s r ∧ BeforeD k outs (x ≠ init) r
  | .none x pos sg s, hpos, ho => ⟨.none _ _ _ _, trivial⟩
  | .node x pos sg out outs s s' ns q h, hpos, ho => by
    obtain ⟨u, hu1, hu2, hu3, hu4⟩ := endMarked_output hem (ho out (by simp))
    obtain ⟨h1, h2, _⟩ := seq_before hem hcand hag hk h hpos u hu1 hu2 hu3
    exact ⟨.node _ _ _ _ _ _ _ _ _ h1, fun hx => h2 (hu4 hx), by simp +contextual⟩
  | .fixed x pos sg out outs s s' l q h hf, hpos, ho => by
    obtain ⟨u, hu1, hu2, hu3, hu4⟩ := endMarked_output hem (ho out (by simp))
    obtain ⟨h1, h2, h3⟩ := seq_before hem hcand hag hk h hpos u hu1 hu2 hu3
    obtain ⟨fs, hfs⟩ := hf
    exact absurd hfs (h3 fs)
  | .next x pos sg out outs s s' f l r h h', hpos, ho => by
    have ih := fun u => seq_before hem hcand hag hk h hpos u
    have ih' := alts_before hem hcand hag hk h' hpos (fun o h => ho o (by simp [h]))
    obtain ⟨u, hu1, hu2, hu3, hu4⟩ := endMarked_output hem (ho out (by simp))
    refine ⟨.next _ _ _ _ _ _ _ _ _ _ (ih u hu1 hu2 hu3).1 ih'.1, ?_⟩
    have h3 := ih'.2
    rcases r with ⟨d | d, s⟩ | _ | _
    · obtain ⟨h4, h5⟩ := h3
      exact ⟨h4, fun o ho => by simp [h5 o ho]⟩
    · exact h3
    · trivial
    · trivial
  | .panicked x pos sg out outs s h, hpos, ho => by
    obtain ⟨u, hu1, hu2, hu3, hu4⟩ := endMarked_output hem (ho out (by simp))
    exact ⟨.panicked _ _ _ _ _ _ (seq_before hem hcand hag hk h hpos u hu1 hu2 hu3).1, trivial⟩
theorem seq_before (hem : EndMarked eps init e ps)
    (hcand : ∀ x a out, out ∈ cand x a → (⟨x, out⟩ : Production T) ∈ ps)
    (hag : ∀ i ≤ k, tokens[i]? = tokens'[i]?)
    (hk : ∀ i ≤ k, ∀ t, tokens[i]? = some t → (t.tType = e ↔ i = k)) {xs : List T} {pos : Nat}
    {sg : Bool} {s : σ} {r : SeqOutcome σ L T} :
    Seq eps ps cand none tokens sg xs pos s r → pos ≤ k →
    ∀ u, (xs = u ∨ xs = u ++ [e]) → e ∉ u → init ∉ u →
    Seq eps ps cand none tokens' sg xs pos s r ∧ BeforeS k (xs = u) r
  | .nil sg pos s, hpos, u, hu, he, hi => ⟨.nil _ _ _, fun _ => hpos, by simp⟩
  | .eps sg xs pos s r h, hpos, u, hu, he, hi => by
    have ih := fun u => seq_before hem hcand hag hk h hpos u
    obtain ⟨u', rfl, hu'⟩ : ∃ u', u = eps :: u' ∧ (xs = u' ∨ xs = u' ++ [e]) := by
      rcases hu with rfl | hu
      · exact ⟨xs, rfl, .inl rfl⟩
      · cases u with
        | nil => simp at hu; exact absurd hu.1.symm hem.ne_eps
        | cons y u => simp at hu; exact ⟨u, by rw [hu.1], .inr hu.2⟩
    obtain ⟨h1, h2⟩ := ih u' hu' (by simp at he; exact he.2) (by simp at hi; exact hi.2)
    refine ⟨.eps _ _ _ _ _ h1, ?_⟩
    rcases r with ⟨⟨l, q⟩, s⟩ | ⟨⟨f, l⟩, s⟩ | _
    · exact ⟨fun h => h2.1 (by simpa using h), by simpa using h2.2⟩
    · trivial
    · trivial
  | .terminal sg xs pos s t r hnt hne ht h, hpos, u, hu, he, hi => by
    have ih := fun hkk u => seq_before hem hcand hag hk h (pos := pos + 1) hkk u
    have ht' : tokens'[pos]? = some t := by rw [← hag pos hpos]; exact ht
    by_cases hte : t.tType = e
    · have hxs : xs = [] := by
        rcases hu with rfl | hu
        · simp [hte] at he
        · cases u with
          | nil => simp at hu; exact hu.2
          | cons y u =>
            simp only [List.cons_append, List.cons.injEq] at hu
            rw [← hu.1] at he
            simp [hte] at he
      subst hxs
      cases h
      refine ⟨.terminal _ _ _ _ _ _ hnt hne ht' (.nil _ _ _), ?_, by simp⟩
      rintro rfl
      simp [hte] at he
    · have hpk : pos + 1 ≤ k := by
        have := (hk pos hpos t ht).not.1 hte
        omega
      obtain ⟨u', rfl, hu'⟩ : ∃ u', u = t.tType :: u' ∧ (xs = u' ∨ xs = u' ++ [e]) := by
        rcases hu with rfl | hu
        · exact ⟨xs, rfl, .inl rfl⟩
        · cases u with
          | nil => simp at hu; exact absurd hu.1 hte
          | cons y u => simp at hu; exact ⟨u, by rw [hu.1], .inr hu.2⟩
      obtain ⟨h1, h2⟩ := ih hpk u' hu' (by simp at he; exact he.2) (by simp at hi; exact hi.2)
      refine ⟨.terminal _ _ _ _ _ _ hnt hne ht' h1, ?_⟩
      rcases r with ⟨⟨l, q⟩, s⟩ | ⟨⟨f, l⟩, s⟩ | _
      · exact ⟨fun h => h2.1 (by simpa using h), by simpa using h2.2⟩
      · trivial
      · trivial
  | .mismatch sg x xs pos s hnt hne hm, hpos, u, hu, he, hi =>
    ⟨.mismatch _ _ _ _ _ hnt hne (by rw [← hag pos hpos]; exact hm), trivial⟩
  | .runsOut sg x xs pos s hnt ht, hpos, u, hu, he, hi =>
    ⟨.runsOut _ _ _ _ _ hnt (by rw [← hag pos hpos]; exact ht), trivial⟩
  | .nonTerminal sg x xs pos s s1 t n q rest r r' hnt ht hc hs hr, hpos, u, hu, he, hi => by
    have ihc := choice_before hem hcand hag hk hc hpos (fun o h => hcand _ _ _ h)
    have ihs := fun hkk u => seq_before hem hcand hag hk hs (pos := q) hkk u
    have ihr := fun h1 => resume_before hem hcand hag hk hr hpos h1
    obtain ⟨u', rfl, hu'⟩ : ∃ u', u = x :: u' ∧ (xs = u' ∨ xs = u' ++ [e]) := by
      rcases hu with rfl | hu
      · exact ⟨xs, rfl, .inl rfl⟩
      · cases u with
        | nil => simp at hu; exact absurd (hu.1 ▸ hnt) hem.terminal
        | cons y u => simp at hu; exact ⟨u, by rw [hu.1], .inr hu.2⟩
    simp only [List.mem_cons, not_or] at he hi
    obtain ⟨h1, h2, h3⟩ := ihc
    obtain ⟨h4, h5⟩ := ihs (h2 (Ne.symm hi.1)) u' hu' he.2 hi.2
    obtain ⟨h6, h7⟩ := ihr (fun o ho => hcand _ _ _ (h3 o ho)) (Ne.symm hi.1) u' hu' he.2 hi.2 h5
    refine ⟨.nonTerminal _ _ _ _ _ _ t _ _ _ _ _ hnt (by rw [← hag pos hpos]; exact ht) h1 h4 h6, ?_⟩
    rcases r' with ⟨⟨l, q⟩, s⟩ | ⟨⟨f, l⟩, s⟩ | _
    · exact ⟨fun h => h7.1 (by simpa using h), h7.2⟩
    · trivial
    · trivial
  | .fixed sg x xs pos s s1 t fs q r hnt ht hc hs, hpos, u, hu, he, hi =>
    (choice_before hem hcand hag hk hc hpos (fun o h => hcand _ _ _ h)).2.elim
  | .failed sg x xs pos s s1 t f hnt ht hc, hpos, u, hu, he, hi => by
    have ihc := choice_before hem hcand hag hk hc hpos (fun o h => hcand _ _ _ h)
    exact ⟨.failed _ _ _ _ _ _ t _ hnt (by rw [← hag pos hpos]; exact ht) ihc.1, trivial⟩
  | .panicked sg x xs pos s t hnt ht hc, hpos, u, hu, he, hi => by
    have ihc := choice_before hem hcand hag hk hc hpos (fun o h => hcand _ _ _ h)
    exact ⟨.panicked _ _ _ _ _ t hnt (by rw [← hag pos hpos]; exact ht) ihc.1, trivial⟩
theorem resume_before (hem : EndMarked eps init e ps)
    (hcand : ∀ x a out, out ∈ cand x a → (⟨x, out⟩ : Production T) ∈ ps)
    (hag : ∀ i ≤ k, tokens[i]? = tokens'[i]?)
    (hk : ∀ i ≤ k, ∀ t, tokens[i]? = some t → (t.tType = e ↔ i = k)) {x : T} {xs : List T}
    {pos : Nat} {sg : Bool} {n : Node L T} {rest : List (List T)} {r r' : SeqOutcome σ L T} :
    Resume eps ps cand none tokens sg x xs pos n rest r r' → pos ≤ k →
    (∀ o ∈ rest, (⟨x, o⟩ : Production T) ∈ ps) → x ≠ init →
    ∀ u, (xs = u ∨ xs = u ++ [e]) → e ∉ u → init ∉ u → BeforeS k (xs = u) r →
    Resume eps ps cand none tokens' sg x xs pos n rest r r' ∧ BeforeS k (xs = u) r'
  | .found sg x xs pos n rest l q s, hpos, ho, hx, u, hu, he, hi, hr =>
    ⟨.found _ _ _ _ _ _ _ _ _, hr.1, by simpa using hr.2⟩
  | .panicked sg x xs pos n rest, hpos, ho, hx, u, hu, he, hi, hr => ⟨.panicked _ _ _ _ _ _, trivial⟩
  | .again sg x xs pos n n' rest rest' f s s1 q r r' hc hs hre, hpos, ho, hx, u, hu, he, hi, hr => by
    have ihc := choice_before hem hcand hag hk hc hpos ho
    have ihs := fun hkk u => seq_before hem hcand hag hk hs (pos := q) hkk u
    have ihr := fun h1 => resume_before hem hcand hag hk hre hpos h1
    obtain ⟨h1, h2, h3⟩ := ihc
    obtain ⟨h4, h5⟩ := ihs (h2 hx) u hu he hi
    obtain ⟨h6, h7⟩ := ihr (fun o ho' => ho o (h3 o ho')) hx u hu he hi h5
    exact ⟨.again _ _ _ _ _ _ _ _ _ _ _ _ _ _ h1 h4 h6, h7⟩
  | .gaveUp sg x xs pos n rest f s s1 f' hc, hpos, ho, hx, u, hu, he, hi, hr =>
    ⟨.gaveUp _ _ _ _ _ _ _ _ _ _ (choice_before hem hcand hag hk hc hpos ho).1, trivial⟩
  | .fixDropped sg x xs pos n rest f s s1 fs q hc, hpos, ho, hx, u, hu, he, hi, hr =>
    (choice_before hem hcand hag hk hc hpos ho).2.elim
  | .retryPanics sg x xs pos n rest f s hc, hpos, ho, hx, u, hu, he, hi, hr =>
    ⟨.retryPanics _ _ _ _ _ _ _ _ (choice_before hem hcand hag hk hc hpos ho).1, trivial⟩
end

end Verif.Parser.Recovery
