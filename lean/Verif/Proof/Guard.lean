import Verif.Proof.Recovery

/-! # Inputs with a token that no terminal matches: the input never runs out -/

set_option linter.unusedSectionVars false

namespace Verif.Parser.Recovery

open Spec Spec.Recovery

variable {σ L T : Type} [DecidableEq T] {eps : T} {ps : List (Production T)}
  {tokens : List (Token L T)} {cand : T → T → List (List T)}
  {solver : Option (Solver σ L T)} {k : Nat}

/-- The solver does not panic, and its fixes do not skip the token at `k`. -/
def TameTo (solver : Option (Solver σ L T)) (tokens : List (Token L T)) (k : Nat) : Prop :=
  ∀ pos, pos ≤ k → ∀ sg fps s, match answer solver tokens pos sg fps s with
    | .ok (some r, _) => r.finalTokenPosition ≤ k
    | .ok (none, _) => True
    | .panic _ => False
    | .fuel => True

/-- The search for a sequence of symbols does not panic and ends at `k` or before. -/
def SeqTo (k : Nat) : SeqOutcome σ L T → Prop
  | .found (_, q) _ => q ≤ k
  | .failed _ _ => True
  | .panicked => False

theorem SeqTo.cons {r : SeqOutcome σ L T} {a : Part L T} (h : SeqTo k r) : SeqTo k (r.cons a) := by
  match r, h with
  | .panicked, h => exact h
  | .failed (f, l) s, h => trivial
  | .found (l, q) s, h => exact h

/-- The search for a non-terminal does not panic and ends at `k` or before. -/
def ChoiceTo {β : Type} (k : Nat) (outs : List (List T)) : Outcome σ (Derived L T) β → Prop
  | .found (.node _ q rest) _ => q ≤ k ∧ ∀ o ∈ rest, o ∈ outs
  | .found (.fixed _ q) _ => q ≤ k
  | .failed _ _ => True
  | .panicked => False

theorem choice_guarded (hcand : ∀ x a out, out ∈ cand x a → (⟨x, out⟩ : Production T) ∈ ps)
    {t : Token L T} (ht : tokens[k]? = some t)
    (hj : ∀ p ∈ ps, ∀ x ∈ p.output, ¬ IsNonTerminal ps x → x ≠ eps → t.tType ≠ x)
    (htame : TameTo solver tokens k) {x : T}
    {pos : Nat} {outs : List (List T)} {sg : Bool} {s : σ}
    {r : Outcome σ (Derived L T) (FailedSymbol L T)}
    (h : Choice eps ps cand solver tokens x pos outs sg s r) :
    (∀ o ∈ outs, (⟨x, o⟩ : Production T) ∈ ps) → pos ≤ k → ChoiceTo k outs r := by
  have hmem : ∀ {x : T} {xs : List T}, (∃ p ∈ ps, x :: xs <:+ p.output) → ∃ p ∈ ps, xs <:+ p.output :=
    fun ⟨p, hp, hs⟩ => ⟨p, hp, (List.suffix_cons _ _).trans hs⟩
  refine Choice.rec (eps := eps) (ps := ps) (cand := cand) (solver := solver) (tokens := tokens)
    (motive_1 := fun x pos outs _ _ r _ => (∀ o ∈ outs, (⟨x, o⟩ : Production T) ∈ ps) →
      pos ≤ k → ChoiceTo k outs r)
    (motive_2 := fun x pos _ outs _ r _ => (∀ o ∈ outs, (⟨x, o⟩ : Production T) ∈ ps) →
      pos ≤ k → ChoiceTo k outs r)
    (motive_3 := fun _ xs pos _ r _ => (∃ p ∈ ps, xs <:+ p.output) → pos ≤ k → SeqTo k r)
    (motive_4 := fun _ x xs pos _ rest r r' _ => (∀ o ∈ rest, (⟨x, o⟩ : Production T) ∈ ps) →
      (∃ p ∈ ps, xs <:+ p.output) → pos ≤ k → SeqTo k r → SeqTo k r')
    ?_ ?_ ?_ ?_ ?_ ?_ ?_ ?_ ?_ ?_ ?_ ?_ ?_ ?_ ?_ ?_ ?_ ?_ ?_ ?_ ?_ ?_ ?_ ?_ ?_ h
  -- Choice
  · intro x pos outs sg s s' d _ ih ho hpos
    have := ih ho hpos
    cases d <;> exact this
  · intro x pos outs sg s _ ih ho hpos
    exact ih ho hpos
  · intro x pos outs sg s s1 s2 fps r _ ha _ ho hpos
    have := htame pos hpos sg fps s1
    rw [ha] at this
    exact this
  · intro x pos outs sg s s1 s2 fps _ _ _ _ _
    trivial
  · intro x pos outs sg s s1 fps er _ ha _ _ hpos
    have := htame pos hpos sg fps s1
    rw [ha] at this
    exact this.elim
  -- Alts
  · intro x pos sg s _ _; trivial
  · intro x pos sg out outs s s' ns q _ ih ho hpos
    exact ⟨ih ⟨_, ho out (by simp), [], rfl⟩ hpos, fun o ho => by simp [ho]⟩
  · intro x pos sg out outs s s' l q _ _ ih ho hpos
    exact ih ⟨_, ho out (by simp), [], rfl⟩ hpos
  · intro x pos sg out outs s s' f l r _ _ _ ih ho hpos
    have := ih (fun o h' => ho o (by simp [h'])) hpos
    rcases r with ⟨d | d, s⟩ | _ | _
    · exact ⟨this.1, fun o ho => by simp [this.2 o ho]⟩
    · exact this
    · trivial
    · exact this
  · intro x pos sg out outs s _ ih ho hpos
    exact ih ⟨_, ho out (by simp), [], rfl⟩ hpos
  -- Seq
  · intro sg pos s _ hpos
    exact hpos
  · intro sg xs pos s r _ ih hu hpos
    exact (ih (hmem hu) hpos).cons
  · intro sg xs pos s t' r hnt hne ht' hseq ih hu hpos
    have : pos ≠ k := by
      rintro rfl
      rw [ht] at ht'
      cases ht'
      obtain ⟨p, hp, hs⟩ := hu
      exact hj p hp t.tType (hs.subset (by simp)) hnt hne rfl
    exact (ih (hmem hu) (by omega)).cons
  · intro sg x xs pos s _ _ _ _ _; trivial
  · intro sg x xs pos s hx hn _ hpos
    have h1 := List.getElem?_eq_none_iff.1 hn
    have h2 := (List.getElem?_eq_some_iff.1 ht).1
    omega
  · intro sg x xs pos s s1 t n q rest r r' hx ht _ _ _ ih1 ih2 ih3 hu hpos
    have h1 := ih1 (fun o ho => hcand _ _ _ ho) hpos
    exact ih3 (fun o ho => hcand _ _ _ (h1.2 o ho)) (hmem hu) hpos (ih2 (hmem hu) h1.1)
  · intro sg x xs pos s s1 t fs q r hx ht _ _ ih1 ih2 hu hpos
    exact (ih2 (hmem hu) (ih1 (fun o ho => hcand _ _ _ ho) hpos)).cons
  · intro sg x xs pos s s1 t f _ _ _ _ _ _; trivial
  · intro sg x xs pos s t hx ht _ ih hu hpos
    exact ih (fun o ho => hcand _ _ _ ho) hpos
  -- Resume
  · intro sg x xs pos n rest l q s _ _ _ h'
    exact h'
  · intro sg x xs pos n rest _ _ _ h'
    exact h'
  · intro sg x xs pos n n' rest rest' f s s1 q r r' _ _ _ ih1 ih2 ih3 ho hu hpos _
    have h1 := ih1 ho hpos
    exact ih3 (fun o h' => ho o (h1.2 o h')) hu hpos (ih2 hu h1.1)
  · intro sg x xs pos n rest f s s1 f' _ _ _ _ _ _; trivial
  · intro sg x xs pos n rest f s s1 fs q _ _ _ _ _ _; trivial
  · intro sg x xs pos n rest f s _ ih ho _ hpos _
    exact ih ho hpos

end Verif.Parser.Recovery
