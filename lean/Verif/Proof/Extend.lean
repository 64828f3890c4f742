import Verif.Spec.Extend
import Verif.Proof.Congr
import Verif.Proof.Backtrack

/-! # Adding productions lets FIRST, FOLLOW and the lookahead sets grow -/

set_option linter.unusedSectionVars false

namespace Verif.Spec

section
variable {T : Type} [DecidableEq T] {eps : T} {ps ps' : List (Production T)}

theorem Extends.mem (h : Extends ps ps') {p : Production T} (hp : p ∈ ps) : p ∈ ps' := h.1.subset hp

theorem Extends.isNonTerminal (h : Extends ps ps') {x : T} (hx : IsNonTerminal ps x) :
    IsNonTerminal ps' x := by
  obtain ⟨p, hp, e⟩ := hx
  exact ⟨p, h.mem hp, e⟩

theorem Extends.isTerminal (h : Extends ps ps') {x : T} (hx : IsTerminal ps x) : IsTerminal ps' x := by
  refine ⟨?_, h.2 x hx⟩
  obtain ⟨⟨p, hp, e⟩, _⟩ := hx
  exact ⟨p, h.mem hp, e⟩

theorem Extends.derives (h : Extends ps ps') {a b : List T} (hd : Derives eps ps a b) :
    Derives eps ps' a b := hd.mono fun _ hp => h.mem hp

theorem Extends.canStart (h : Extends ps ps') {x a : T} (hc : CanStart eps ps x a) :
    CanStart eps ps' x a := by
  obtain ⟨h1, h2, v, h3⟩ := hc
  exact ⟨h.isTerminal h1, h2, v, h.derives h3⟩

theorem Extends.strNullable (h : Extends ps ps') {l : List T} (hl : StrNullable eps ps l) :
    StrNullable eps ps' l := fun x hx => h.derives (hl x hx)

theorem Extends.strFirst (h : Extends ps ps') {l : List T} {a : T} (hl : StrFirst eps ps l a) :
    StrFirst eps ps' l a := by
  obtain ⟨w, y, v, e, h1, h2⟩ := hl
  exact ⟨w, y, v, e, h.strNullable h1, h.canStart h2⟩

theorem Extends.followRule (h : Extends ps ps') {x a : T} (hf : FollowRule eps ps x a) :
    FollowRule eps ps' x a := by
  induction hf with
  | first hp hr hx ht ha => exact .first (h.mem hp) hr (h.isNonTerminal hx) ht (h.strFirst ha)
  | last hp hr hx ht _ ih => exact .last (h.mem hp) hr (h.isNonTerminal hx) (h.strNullable ht) ih

theorem Extends.lead (h : Extends ps ps') {p : Production T} {a : T}
    (hl : Transitions.Lead eps ps p a) : Transitions.Lead eps ps' p a := by
  rcases hl with ⟨e, hf⟩ | ⟨x, t, e, hf | ⟨hn, hf⟩⟩
  · exact .inl ⟨e, h.followRule hf⟩
  · exact .inr ⟨x, t, e, .inl (h.canStart hf)⟩
  · exact .inr ⟨x, t, e, .inr ⟨h.derives hn, h.followRule hf⟩⟩

end

variable {L T : Type} {eps : T} {ps ps' : List (Production T)} {cand cand' : T → T → List (List T)}
  {tokens : List (Token L T)}

mutual
theorem choice_extend (hnt : ∀ x, IsNonTerminal ps x → IsNonTerminal ps' x)
    (hter : ∀ p ∈ ps, ∀ x ∈ p.output, ¬ IsNonTerminal ps x → ¬ IsNonTerminal ps' x)
    (hps : ∀ x a out, out ∈ cand x a → (⟨x, out⟩ : Production T) ∈ ps)
    (hcf : ∀ x a, (cand x a).length ≤ 1)
    (hsame : ∀ x a, cand x a ≠ [] → cand' x a = cand x a) {x : T}
    {pos : Nat} {outs : List (List T)} {r : Search (Node L T × Nat × List (List T))} :
    Choice eps ps cand tokens x pos outs r → outs.length ≤ 1 →
    (∀ o ∈ outs, (⟨x, o⟩ : Production T) ∈ ps) →
    ∀ n q rest, r = .found (n, q, rest) →
    rest = [] ∧ outs ≠ [] ∧ Choice eps ps' cand' tokens x pos outs (.found (n, q, rest))
  | .none _ _, _, _, _, _, _, he => nomatch he
  | .here x pos out outs ns q h, hl, ho, _, _, _, he => by
    cases he
    have h1 := seq_extend hnt hter hps hcf hsame h
      (fun y hy => hter _ (ho out (by simp)) y hy) _ _ rfl
    exact ⟨by simpa using hl, by simp, .here _ _ _ _ _ _ h1⟩
  | .next x pos out outs r h h', hl, _, n, q, rest, he => by
    have hos : outs = [] := by simpa using hl
    subst hos
    subst he
    cases h'
  | .ranOut _ _ _ _ _, _, _, _, _, _, he => nomatch he
theorem seq_extend (hnt : ∀ x, IsNonTerminal ps x → IsNonTerminal ps' x)
    (hter : ∀ p ∈ ps, ∀ x ∈ p.output, ¬ IsNonTerminal ps x → ¬ IsNonTerminal ps' x)
    (hps : ∀ x a out, out ∈ cand x a → (⟨x, out⟩ : Production T) ∈ ps)
    (hcf : ∀ x a, (cand x a).length ≤ 1)
    (hsame : ∀ x a, cand x a ≠ [] → cand' x a = cand x a)
    {xs : List T} {pos : Nat} {r : Search (List (Node L T) × Nat)} :
    Seq eps ps cand tokens xs pos r → (∀ y ∈ xs, ¬ IsNonTerminal ps y → ¬ IsNonTerminal ps' y) →
    ∀ ns q, r = .found (ns, q) → Seq eps ps' cand' tokens xs pos (.found (ns, q))
  | .nil pos, _, _, _, he => by
    cases he
    exact .nil _
  | .eps xs pos r h, hx, ns, q, he => by
    have ih := seq_extend hnt hter hps hcf hsame h (fun y hy => hx y (by simp [hy]))
    match r, he with
    | .found (ns', q'), he =>
      cases he
      exact .eps _ _ _ (ih _ _ rfl)
  | .terminal xs pos t r ht hne htok h, hx, ns, q, he => by
    have ih := seq_extend hnt hter hps hcf hsame h (fun y hy => hx y (by simp [hy]))
    match r, he with
    | .found (ns', q'), he =>
      cases he
      exact .terminal _ _ _ _ (hx _ (by simp) ht) hne htok (ih _ _ rfl)
  | .mismatch _ _ _ _ _ _, _, _, _, he => nomatch he
  | .nonTerminal x xs pos t r hx ht h, hxs, ns, q, he => by
    obtain ⟨h1, h2⟩ := retry_extend hnt hter hps hcf hsame h (hcf _ _) (hps _ _)
      (fun y hy => hxs y (by simp [hy])) _ _ he
    exact .nonTerminal _ _ _ t _ (hnt _ hx) ht (by rw [hsame _ _ h1]; exact h2)
  | .ranOut _ _ _ _ _, _, _, _, he => nomatch he
theorem retry_extend (hnt : ∀ x, IsNonTerminal ps x → IsNonTerminal ps' x)
    (hter : ∀ p ∈ ps, ∀ x ∈ p.output, ¬ IsNonTerminal ps x → ¬ IsNonTerminal ps' x)
    (hps : ∀ x a out, out ∈ cand x a → (⟨x, out⟩ : Production T) ∈ ps)
    (hcf : ∀ x a, (cand x a).length ≤ 1)
    (hsame : ∀ x a, cand x a ≠ [] → cand' x a = cand x a) {x : T}
    {xs : List T} {pos : Nat} {outs : List (List T)} {r : Search (List (Node L T) × Nat)} :
    Retry eps ps cand tokens x xs pos outs r → outs.length ≤ 1 →
    (∀ o ∈ outs, (⟨x, o⟩ : Production T) ∈ ps) →
    (∀ y ∈ xs, ¬ IsNonTerminal ps y → ¬ IsNonTerminal ps' y) → ∀ ns q, r = .found (ns, q) →
    outs ≠ [] ∧ Retry eps ps' cand' tokens x xs pos outs (.found (ns, q))
  | .failed _ _ _ _ _, _, _, _, _, _, he => nomatch he
  | .ranOut _ _ _ _ _, _, _, _, _, _, he => nomatch he
  | .found x xs pos outs rest n q q' ns h h', hl, ho, hxs, _, _, he => by
    cases he
    obtain ⟨_, h1, h2⟩ := choice_extend hnt hter hps hcf hsame h hl ho _ _ _ rfl
    have h3 := seq_extend hnt hter hps hcf hsame h' hxs _ _ rfl
    exact ⟨h1, .found _ _ _ _ _ _ _ _ _ h2 h3⟩
  | .again x xs pos outs rest n q r h h' h'', hl, ho, _, _, _, he => by
    obtain ⟨hrest, _⟩ := choice_extend hnt hter hps hcf hsame h hl ho _ _ _ rfl
    subst hrest
    subst he
    cases h'' with
    | found _ _ _ _ _ _ _ _ _ h => cases h
    | again _ _ _ _ _ _ _ _ h => cases h
  | .ranOutAfter _ _ _ _ _ _ _ _ _, _, _, _, _, _, he => nomatch he
end

end Verif.Spec
