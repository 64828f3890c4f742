import Verif.Proof.Recovery
import Verif.Proof.EndMarker

/-! # End-marked grammars: the input never runs out, with a solver -/

set_option linter.unusedSectionVars false

namespace Verif.Parser.Recovery

open Spec Spec.Recovery

variable {σ L T : Type} [DecidableEq T] {eps init e : T} {ps : List (Production T)}
  {p : Parser σ L T} {tokens : List (Token L T)} {cand : T → T → List (List T)}
  {solver : Option (Solver σ L T)}

/-- The solver does not panic and its fixes do not skip the last token. -/
def Tame (solver : Option (Solver σ L T)) (tokens : List (Token L T)) : Prop :=
  ∀ pos, pos < tokens.length → ∀ sg fps s, match answer solver tokens pos sg fps s with
    | .ok (some r, _) => r.finalTokenPosition < tokens.length
    | .ok (none, _) => True
    | .panic _ => False
    | .fuel => True

/-- The search does not panic, and if `b` ends inside the input. -/
def SeqIn (tokens : List (Token L T)) (b : Prop) (r : SeqOutcome σ L T) : Prop :=
  r ≠ .panicked ∧ (b → ∀ l q s, r = .found (l, q) s → q < tokens.length)

theorem SeqIn.cons {b : Prop} {r : SeqOutcome σ L T} {a : Part L T} (h : SeqIn tokens b r) :
    SeqIn tokens b (r.cons a) := by
  match r, h with
  | .panicked, h => exact absurd rfl h.1
  | .failed (f, l) s, h => simp [SeqOutcome.cons, SeqIn]
  | .found (l, q) s, h =>
    refine ⟨by simp [SeqOutcome.cons], ?_⟩
    intro hb l' q' s' he
    simp only [SeqOutcome.cons, Outcome.found.injEq, Prod.mk.injEq] at he
    have := h.2 hb _ _ _ rfl
    omega

/-- Where a derived non-terminal ends, and what it leaves. -/
def DerivedIn (tokens : List (Token L T)) (outs : List (List T)) : Derived L T → Prop
  | .node _ q rest => q < tokens.length ∧ ∀ o ∈ rest, o ∈ outs
  | .fixed _ q => q < tokens.length

/-- The derivation does not panic, and if `b` ends inside the input. -/
def ChoiceIn {β : Type} (tokens : List (Token L T)) (outs : List (List T)) (b : Prop)
    (r : Outcome σ (Derived L T) β) : Prop :=
  r ≠ .panicked ∧ (b → ∀ d s, r = .found d s → DerivedIn tokens outs d)

theorem DerivedIn.mono {outs outs' : List (List T)} (hs : ∀ o ∈ outs, o ∈ outs') {d : Derived L T}
    (h : DerivedIn tokens outs d) : DerivedIn tokens outs' d := by
  cases d with
  | node n q rest => exact ⟨h.1, fun o ho => hs o (h.2 o ho)⟩
  | fixed fs q => exact h

theorem choice_inside (hcand : ∀ x a out, out ∈ cand x a → (⟨x, out⟩ : Production T) ∈ ps)
    (hem : EndMarked eps init e ps) (hin : EndsWith e tokens) (htame : Tame solver tokens) {x : T}
    {pos : Nat} {outs : List (List T)} {sg : Bool} {s : σ}
    {r : Outcome σ (Derived L T) (FailedSymbol L T)}
    (h : Choice eps ps cand solver tokens x pos outs sg s r)
    (houts : ∀ o ∈ outs, (⟨x, o⟩ : Production T) ∈ ps)
    (hpos : pos < tokens.length) : r ≠ .panicked := by
  suffices hmain : (∀ o ∈ outs, (⟨x, o⟩ : Production T) ∈ ps) → pos < tokens.length →
      ChoiceIn tokens outs (x ≠ init) r from (hmain houts hpos).1
  clear houts hpos
  have hsplit : ∀ {x : T} {xs u : List T}, (x :: xs = u ∨ x :: xs = u ++ [e]) → x ≠ e →
      ∃ u', u = x :: u' ∧ (xs = u' ∨ xs = u' ++ [e]) := by
    intro x xs u hu hne
    cases u with
    | nil =>
      rcases hu with hu | hu
      · simp at hu
      · simp only [List.nil_append, List.cons.injEq] at hu; exact absurd hu.1 hne
    | cons y u =>
      rcases hu with hu | hu <;> simp at hu
      · exact ⟨u, by simp [hu], .inl hu.2⟩
      · exact ⟨u, by simp [hu], .inr hu.2⟩
  have hprod : ∀ {x : T} {out : List T}, (⟨x, out⟩ : Production T) ∈ ps →
      ∃ u, (out = u ∨ out = u ++ [e]) ∧ e ∉ u ∧ init ∉ u ∧ (x ≠ init → out = u) := by
    intro x out hmem
    have hi := hem.initial_once _ hmem
    by_cases hx : x = init
    · obtain ⟨u, hu, he⟩ := hem.initial_ends _ hmem hx
      simp only at hu hi
      refine ⟨u, .inr hu, he, ?_, fun h => absurd hx h⟩
      intro h'; exact hi (by rw [hu]; simp [h'])
    · exact ⟨out, .inl rfl, hem.only_there _ hmem hx, hi, fun _ => rfl⟩
  have hntne : ∀ {x : T}, IsNonTerminal ps x → x ≠ e := by
    rintro x hx rfl; exact hem.terminal hx
  refine Choice.rec (eps := eps) (ps := ps) (cand := cand) (solver := solver) (tokens := tokens)
    (motive_1 := fun x pos outs _ _ r _ => (∀ o ∈ outs, (⟨x, o⟩ : Production T) ∈ ps) →
      pos < tokens.length → ChoiceIn tokens outs (x ≠ init) r)
    (motive_2 := fun x pos _ outs _ r _ => (∀ o ∈ outs, (⟨x, o⟩ : Production T) ∈ ps) →
      pos < tokens.length → ChoiceIn tokens outs (x ≠ init) r)
    (motive_3 := fun _ xs pos _ r _ => ∀ u, (xs = u ∨ xs = u ++ [e]) → e ∉ u → init ∉ u →
      pos < tokens.length → SeqIn tokens (xs = u) r)
    (motive_4 := fun _ x xs pos _ rest r r' _ => x ≠ init →
      (∀ o ∈ rest, (⟨x, o⟩ : Production T) ∈ ps) →
      ∀ u, (xs = u ∨ xs = u ++ [e]) → e ∉ u → init ∉ u →
      pos < tokens.length → SeqIn tokens (xs = u) r → SeqIn tokens (xs = u) r')
    ?_ ?_ ?_ ?_ ?_ ?_ ?_ ?_ ?_ ?_ ?_ ?_ ?_ ?_ ?_ ?_ ?_ ?_ ?_ ?_ ?_ ?_ ?_ ?_ ?_ h
  -- Choice
  · intro x pos outs sg s s' d _ ih ho hpos
    have := ih ho hpos
    exact ⟨by simp, fun hb d' s'' he => this.2 hb d' s'' (by cases he; rfl)⟩
  · intro x pos outs sg s _ ih ho hpos
    exact absurd rfl (ih ho hpos).1
  · intro x pos outs sg s s1 s2 fps r _ ha _ ho hpos
    have := htame pos hpos sg fps s1
    rw [ha] at this
    refine ⟨by simp, fun hb d' s'' he => ?_⟩
    cases he
    exact this
  · intro x pos outs sg s s1 s2 fps _ _ _ _ _
    simp [ChoiceIn]
  · intro x pos outs sg s s1 fps er _ ha _ _ hpos
    have := htame pos hpos sg fps s1
    rw [ha] at this
    exact this.elim
  -- Alts
  · intro x pos sg s _ _; simp [ChoiceIn]
  · intro x pos sg out outs s s' ns q _ ih ho hpos
    obtain ⟨u, hu, he, hi, hx⟩ := hprod (ho out (by simp))
    have := ih u hu he hi hpos
    refine ⟨by simp, fun hb d s'' heq => ?_⟩
    cases heq
    exact ⟨this.2 (hx hb) _ _ _ rfl, fun o ho => by simp [ho]⟩
  · intro x pos sg out outs s s' l q _ _ ih ho hpos
    obtain ⟨u, hu, he, hi, hx⟩ := hprod (ho out (by simp))
    have := ih u hu he hi hpos
    refine ⟨by simp, fun hb d s'' heq => ?_⟩
    cases heq
    exact this.2 (hx hb) _ _ _ rfl
  · intro x pos sg out outs s s' f l r _ _ _ ih ho hpos
    have := ih (fun o h' => ho o (by simp [h'])) hpos
    match r, this with
    | .panicked, this => exact absurd rfl this.1
    | .failed fps s, _ => simp [consFailed, ChoiceIn]
    | .found d s, this =>
      refine ⟨by simp [consFailed], fun hb d' s' heq => ?_⟩
      cases heq
      exact (this.2 hb _ _ rfl).mono (fun o h' => by simp [h'])
  · intro x pos sg out outs s _ ih ho hpos
    obtain ⟨u, hu, he, hi, hx⟩ := hprod (ho out (by simp))
    exact absurd rfl (ih u hu he hi hpos).1
  -- Seq
  · intro sg pos s u _ _ _ hpos
    refine ⟨by simp, fun _ l q s' heq => ?_⟩
    cases heq
    exact hpos
  · intro sg xs pos s r _ ih u hu he hi hpos
    obtain ⟨u, rfl, hu'⟩ := hsplit hu (Ne.symm hem.ne_eps)
    simp only [List.mem_cons, not_or] at he hi
    simpa using (ih u hu' he.2 hi.2 hpos).cons
  · intro sg xs pos s t r hnt hne ht hseq ih u hu he hi hpos
    by_cases hte : t.tType = e
    · cases u with
      | nil =>
        rcases hu with hu | hu
        · simp at hu
        · simp only [List.nil_append, List.cons.injEq] at hu
          obtain ⟨_, rfl⟩ := hu
          cases hseq
          simp [SeqOutcome.cons, SeqIn]
      | cons y u =>
        simp only [List.mem_cons, not_or] at he
        rcases hu with hu | hu <;> simp at hu <;> exact absurd (hte.symm.trans hu.1) he.1
    · obtain ⟨u, rfl, hu'⟩ := hsplit hu hte
      simp only [List.mem_cons, not_or] at he hi
      have hlt : pos + 1 < tokens.length := by
        have : pos + 1 ≠ tokens.length := fun h' => hte ((Parser.EndsWith.last hin ht).2 h')
        omega
      simpa using (ih u hu' he.2 hi.2 hlt).cons
  · intro sg x xs pos s _ _ _ u _ _ _ _; simp [SeqIn]
  · intro sg x xs pos s hx ht u _ _ _ hpos
    have := List.getElem?_eq_none_iff.1 ht
    omega
  · intro sg x xs pos s s1 t n q rest r r' hx ht _ _ _ ih1 ih2 ih3 u hu he hi hpos
    obtain ⟨u, rfl, hu'⟩ := hsplit hu (hntne hx)
    simp only [List.mem_cons, not_or] at he hi
    have h1 := (ih1 (fun o ho => hcand _ _ _ ho) hpos).2 (Ne.symm hi.1) _ _ rfl
    have h2 := ih2 u hu' he.2 hi.2 h1.1
    simpa using ih3 (Ne.symm hi.1) (fun o ho => hcand _ _ _ (h1.2 o ho)) u hu' he.2 hi.2 hpos h2
  · intro sg x xs pos s s1 t fs q r hx ht _ _ ih1 ih2 u hu he hi hpos
    obtain ⟨u, rfl, hu'⟩ := hsplit hu (hntne hx)
    simp only [List.mem_cons, not_or] at he hi
    have h1 := (ih1 (fun o ho => hcand _ _ _ ho) hpos).2 (Ne.symm hi.1) _ _ rfl
    simpa using (ih2 u hu' he.2 hi.2 h1).cons
  · intro sg x xs pos s s1 t f _ _ _ _ u _ _ _ _; simp [SeqIn]
  · intro sg x xs pos s t hx ht _ ih u hu he hi hpos
    exact absurd rfl (ih (fun o ho => hcand _ _ _ ho) hpos).1
  -- Resume
  · intro sg x xs pos n rest l q s _ _ u _ _ _ _ h'
    refine ⟨by simp, fun hb l' q' s' heq => ?_⟩
    cases heq
    exact h'.2 hb _ _ _ rfl
  · intro sg x xs pos n rest _ _ u _ _ _ _ h'
    exact h'
  · intro sg x xs pos n n' rest rest' f s s1 q r r' _ _ _ ih1 ih2 ih3 hx ho u hu he hi hpos _
    have h1 := (ih1 ho hpos).2 hx _ _ rfl
    exact ih3 hx (fun o h' => ho o (h1.2 o h')) u hu he hi hpos (ih2 u hu he hi h1.1)
  · intro sg x xs pos n rest f s s1 f' _ _ _ _ u _ _ _ _ _; simp [SeqIn]
  · intro sg x xs pos n rest f s s1 fs q _ _ _ _ u _ _ _ _ _; simp [SeqIn]
  · intro sg x xs pos n rest f s _ ih hx ho u _ _ _ hpos _
    exact absurd rfl (ih ho hpos).1

/-- No panic for end-marked grammars and inputs and tame solvers. -/
theorem no_panic_of_endMarked (P : ParserOf eps init ps p) (htame : Tame p.syntaxErrorSolver tokens)
    (hem : EndMarked eps init e ps) (hin : EndsWith e tokens) (s : σ) : ¬ ParsePanics p tokens s := by
  intro hpan
  obtain ⟨ts, u, hts, _⟩ := id hin
  cases tokens with
  | nil => simp at hts
  | cons t ts' =>
    have := (parse_iff_choice P t ts' s).2.1.1 hpan
    exact choice_inside P.cand hem hin htame this (fun o ho => P.cand _ _ _ ho) (by simp) rfl

end Verif.Parser.Recovery
