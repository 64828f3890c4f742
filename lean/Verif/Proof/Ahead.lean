import Verif.Proof.Backtrack

/-! # Without conflicts a successful search reads at most one token ahead -/

set_option linter.unusedSectionVars false

namespace Verif.Spec

variable {L T : Type} {eps : T} {ps : List (Production T)} {cand : T → T → List (List T)}
  {tokens tokens' : List (Token L T)}

/-- The two inputs agree on the tokens in front of `q` and on the type of the token at `q`, if there is
one in the first. -/
def AgreeTo (tokens tokens' : List (Token L T)) (q : Nat) : Prop :=
  (∀ i, i < q → tokens'[i]? = tokens[i]?) ∧
  ∀ t, tokens[q]? = some t → ∃ t', tokens'[q]? = some t' ∧ t'.tType = t.tType

theorem AgreeTo.type {q i : Nat} (h : AgreeTo tokens tokens' q) (hi : i ≤ q) {t : Token L T}
    (ht : tokens[i]? = some t) : ∃ t', tokens'[i]? = some t' ∧ t'.tType = t.tType := by
  rcases Nat.lt_or_ge i q with hlt | hge
  · exact ⟨t, by rw [h.1 i hlt, ht], rfl⟩
  · obtain rfl : i = q := by omega
    exact h.2 t ht

theorem AgreeTo.down {q i : Nat} (h : AgreeTo tokens tokens' q) (hi : i ≤ q) :
    AgreeTo tokens tokens' i :=
  ⟨fun j hj => h.1 j (by omega), fun _ ht => h.type hi ht⟩

mutual
theorem choice_ahead (hcf : ∀ x a, (cand x a).length ≤ 1) {x : T}
    {pos : Nat} {outs : List (List T)} {r : Search (Node L T × Nat × List (List T))} :
    Choice eps ps cand tokens x pos outs r → outs.length ≤ 1 →
    ∀ n q rest, r = .found (n, q, rest) →
    rest = [] ∧ pos ≤ q ∧
      (AgreeTo tokens tokens' q → Choice eps ps cand tokens' x pos outs (.found (n, q, rest)))
  | .none _ _, _, _, _, _, he => nomatch he
  | .here x pos out outs ns q h, hl, _, _, _, he => by
    cases he
    obtain ⟨h1, h2⟩ := seq_ahead hcf h _ _ rfl
    refine ⟨?_, h1, fun ha => .here _ _ _ _ _ _ (h2 ha)⟩
    simpa using hl
  | .next x pos out outs r h h', hl, n, q, rest, he => by
    have hos : outs = [] := by simpa using hl
    subst hos
    subst he
    cases h'
  | .ranOut _ _ _ _ _, _, _, _, _, he => nomatch he
theorem seq_ahead (hcf : ∀ x a, (cand x a).length ≤ 1)
    {xs : List T} {pos : Nat} {r : Search (List (Node L T) × Nat)} :
    Seq eps ps cand tokens xs pos r → ∀ ns q, r = .found (ns, q) →
    pos ≤ q ∧ (AgreeTo tokens tokens' q → Seq eps ps cand tokens' xs pos (.found (ns, q)))
  | .nil pos, _, _, he => by
    cases he
    exact ⟨Nat.le_refl _, fun _ => .nil _⟩
  | .eps xs pos r h, ns, q, he => by
    have ih := seq_ahead hcf h
    match r, he with
    | .found (ns', q'), he =>
      cases he
      obtain ⟨h1, h2⟩ := ih _ _ rfl
      exact ⟨h1, fun ha => .eps _ _ _ (h2 ha)⟩
  | .terminal xs pos t r ht hne htok h, ns, q, he => by
    have ih := seq_ahead hcf h
    match r, he with
    | .found (ns', q'), he =>
      cases he
      obtain ⟨h1, h2⟩ := ih _ _ rfl
      refine ⟨by omega, fun ha => .terminal _ _ _ _ ht hne ?_ (h2 ha)⟩
      rw [ha.1 pos (by omega), htok]
  | .mismatch _ _ _ _ _ _, _, _, he => nomatch he
  | .nonTerminal x xs pos t r hx ht h, ns, q, he => by
    obtain ⟨h1, h2⟩ := retry_ahead hcf h (hcf _ _) _ _ he
    refine ⟨h1, fun ha => ?_⟩
    obtain ⟨t', ht', hty⟩ := ha.type h1 ht
    exact .nonTerminal _ _ _ t' _ hx ht' (hty ▸ h2 ha)
  | .ranOut _ _ _ _ _, _, _, he => nomatch he
theorem retry_ahead (hcf : ∀ x a, (cand x a).length ≤ 1) {x : T}
    {xs : List T} {pos : Nat} {outs : List (List T)} {r : Search (List (Node L T) × Nat)} :
    Retry eps ps cand tokens x xs pos outs r → outs.length ≤ 1 → ∀ ns q, r = .found (ns, q) →
    pos ≤ q ∧ (AgreeTo tokens tokens' q → Retry eps ps cand tokens' x xs pos outs (.found (ns, q)))
  | .failed _ _ _ _ _, _, _, _, he => nomatch he
  | .ranOut _ _ _ _ _, _, _, _, he => nomatch he
  | .found x xs pos outs rest n q q' ns h h', hl, _, _, he => by
    cases he
    obtain ⟨_, h1, h2⟩ := choice_ahead hcf h hl _ _ _ rfl
    obtain ⟨h3, h4⟩ := seq_ahead hcf h' _ _ rfl
    exact ⟨by omega, fun ha => .found _ _ _ _ _ _ _ _ _ (h2 (ha.down h3)) (h4 ha)⟩
  | .again x xs pos outs rest n q r h h' h'', hl, _, _, he => by
    obtain ⟨hrest, _⟩ := choice_ahead hcf h hl _ _ _ rfl
    subst hrest
    subst he
    cases h'' with
    | found _ _ _ _ _ _ _ _ _ h => cases h
    | again _ _ _ _ _ _ _ _ h => cases h
  | .ranOutAfter _ _ _ _ _ _ _ _ _, _, _, _, he => nomatch he
end

end Verif.Spec
