import Verif.Proof.Ahead
import Verif.Spec.EndMarker

/-! # Without conflicts: what a successful search does on the consumed tokens alone -/

set_option linter.unusedSectionVars false

namespace Verif.Spec

variable {L T : Type} [DecidableEq T] {eps : T} {ps : List (Production T)} {cand : T → T → List (List T)}
  {tokens tokens' : List (Token L T)}

/-- The second input is the first one, cut off behind `k` tokens. -/
def CutAt (tokens tokens' : List (Token L T)) (k : Nat) : Prop :=
  (∀ i, i < k → tokens'[i]? = tokens[i]?) ∧ ∀ i, k ≤ i → tokens'[i]? = none

/-- The last of the trees, up to trees without tokens, ends empty. -/
def LastEmpty (eps : T) (ps : List (Production T)) (ns : List (Node L T)) : Prop :=
  ∃ a c b, ns = a ++ c :: b ∧ leavesList eps b = [] ∧ EndsEmpty eps ps c

theorem lastEmpty_nil : ¬ LastEmpty eps ps ([] : List (Node L T)) := by
  rintro ⟨a, c, b, h, _⟩
  simp at h

theorem lastEmpty_cons {n : Node L T} {ns : List (Node L T)} :
    LastEmpty eps ps (n :: ns) ↔ (leavesList eps ns = [] ∧ EndsEmpty eps ps n) ∨ LastEmpty eps ps ns := by
  constructor
  · rintro ⟨a, c, b, h, h1, h2⟩
    cases a with
    | nil =>
      simp only [List.nil_append, List.cons.injEq] at h
      obtain ⟨rfl, rfl⟩ := h
      exact .inl ⟨h1, h2⟩
    | cons a0 a =>
      simp only [List.cons_append, List.cons.injEq] at h
      exact .inr ⟨a, c, b, h.2, h1, h2⟩
  · rintro (⟨h1, h2⟩ | ⟨a, c, b, rfl, h1, h2⟩)
    · exact ⟨[], n, ns, rfl, h1, h2⟩
    · exact ⟨n :: a, c, b, rfl, h1, h2⟩

theorem endsEmpty_leaf {t : Token L T} (ht : ¬ IsNonTerminal ps t.tType) :
    ¬ EndsEmpty eps ps (.mk [] t : Node L T) := by
  intro h
  generalize hn : (Node.mk [] t : Node L T) = n at h
  cases h with
  | here _ h1 _ => subst hn; exact ht h1
  | last a c b t' _ _ => simp at hn

theorem endsEmpty_node {ns : List (Node L T)} {t : Token L T} :
    EndsEmpty eps ps (.mk ns t) ↔
      (IsNonTerminal ps t.tType ∧ leaves eps (.mk ns t) = []) ∨ LastEmpty eps ps ns := by
  constructor
  · intro h
    generalize hn : (Node.mk ns t : Node L T) = n at h
    cases h with
    | here _ h1 h2 => subst hn; exact .inl ⟨h1, h2⟩
    | last a c b t' h1 h2 =>
      cases hn
      exact .inr ⟨a, c, b, rfl, h1, h2⟩
  · rintro (⟨h1, h2⟩ | ⟨a, c, b, rfl, h1, h2⟩)
    · exact .here _ h1 h2
    · exact .last a c b t h1 h2

theorem isForest_leaves (hw : WellFormed eps ps) {xs : List T} {w : List (Token L T)}
    {ns : List (Node L T)} (h : IsForest eps ps xs w ns) : leavesList eps ns = w := by
  induction ns generalizing xs w with
  | nil => cases h; rfl
  | cons n ns ih =>
    cases h with
    | cons _ _ _ _ _ _ h1 h2 => rw [leavesList, isTree_leaves hw h1, ih h2]

theorem choice_len (hw : WellFormed eps ps)
    (hcand : ∀ x a out, out ∈ cand x a → (⟨x, out⟩ : Production T) ∈ ps) {x : T} {pos : Nat}
    {outs : List (List T)} (ho : ∀ o ∈ outs, (⟨x, o⟩ : Production T) ∈ ps) {n : Node L T} {q : Nat}
    {rest : List (List T)} (h : Choice eps ps cand tokens x pos outs (.found (n, q, rest))) :
    q = pos + (leaves eps n).length := by
  obtain ⟨⟨w, h1, _, h2⟩, _⟩ := Parser.choice_sound hcand h ho _ _ _ rfl
  rw [isTree_leaves hw h1, h2]

theorem seq_len (hw : WellFormed eps ps)
    (hcand : ∀ x a out, out ∈ cand x a → (⟨x, out⟩ : Production T) ∈ ps) {xs : List T} {pos : Nat}
    {ns : List (Node L T)} {q : Nat} (h : Seq eps ps cand tokens xs pos (.found (ns, q))) :
    q = pos + (leavesList eps ns).length := by
  obtain ⟨w, h1, _, h2⟩ := Parser.seq_sound hcand h _ _ rfl
  rw [isForest_leaves hw h1, h2]

mutual
theorem choice_cut (hw : WellFormed eps ps) (hcf : ∀ x a, (cand x a).length ≤ 1)
    (hcand : ∀ x a out, out ∈ cand x a → (⟨x, out⟩ : Production T) ∈ ps) {k : Nat}
    (hk : CutAt tokens tokens' k) {x : T}
    {pos : Nat} {outs : List (List T)} {r : Search (Node L T × Nat × List (List T))} :
    Choice eps ps cand tokens x pos outs r → outs.length ≤ 1 →
    (∀ o ∈ outs, (⟨x, o⟩ : Production T) ∈ ps) → pos < k →
    ∀ n q rest, r = .found (n, q, rest) → q ≤ k →
    rest = [] ∧ (¬ (q = k ∧ EndsEmpty eps ps n) →
        Choice eps ps cand tokens' x pos outs (.found (n, q, rest))) ∧
      (q = k ∧ EndsEmpty eps ps n → Choice eps ps cand tokens' x pos outs .ranOut)
  | .none _ _, _, _, _, _, _, _, he, _ => nomatch he
  | .here x pos out outs ns q h, hl, ho, hp, _, _, _, he, hq => by
    cases he
    obtain ⟨h1, h2⟩ := seq_cut hw hcf hcand hk h _ _ rfl hq
    have hlen := choice_len hw hcand ho (.here x pos out outs ns q h)
    have hiff : q = k → (EndsEmpty eps ps (.mk ns ⟨none, x⟩ : Node L T) ↔ LastEmpty eps ps ns) := by
      intro hqk
      rw [endsEmpty_node]
      constructor
      · rintro (⟨_, h3⟩ | h3)
        · rw [h3] at hlen
          simp at hlen
          omega
        · exact h3
      · exact .inr
    refine ⟨by simpa using hl, fun hn => .here _ _ _ _ _ _ (h1 ?_), fun hy => .ranOut _ _ _ _ (h2 ?_)⟩
    · rintro ⟨h3, h4⟩
      exact hn ⟨h3, (hiff h3).2 h4⟩
    · exact ⟨hy.1, (hiff hy.1).1 hy.2⟩
  | .next x pos out outs r h h', hl, _, _, n, q, rest, he, _ => by
    have hos : outs = [] := by simpa using hl
    subst hos
    subst he
    cases h'
  | .ranOut _ _ _ _ _, _, _, _, _, _, _, he, _ => nomatch he
theorem seq_cut (hw : WellFormed eps ps) (hcf : ∀ x a, (cand x a).length ≤ 1)
    (hcand : ∀ x a out, out ∈ cand x a → (⟨x, out⟩ : Production T) ∈ ps) {k : Nat}
    (hk : CutAt tokens tokens' k)
    {xs : List T} {pos : Nat} {r : Search (List (Node L T) × Nat)} :
    Seq eps ps cand tokens xs pos r → ∀ ns q, r = .found (ns, q) → q ≤ k →
    (¬ (q = k ∧ LastEmpty eps ps ns) → Seq eps ps cand tokens' xs pos (.found (ns, q))) ∧
      (q = k ∧ LastEmpty eps ps ns → Seq eps ps cand tokens' xs pos .ranOut)
  | .nil pos, _, _, he, _ => by
    cases he
    exact ⟨fun _ => .nil _, fun h => absurd h.2 lastEmpty_nil⟩
  | .eps xs pos r h, ns, q, he, hq => by
    have ih := seq_cut hw hcf hcand hk h
    match r, he with
    | .found (ns', q'), he =>
      cases he
      obtain ⟨h1, h2⟩ := ih _ _ rfl hq
      have hiff : LastEmpty eps ps (.mk [] ⟨none, eps⟩ :: ns') ↔ LastEmpty eps ps ns' := by
        rw [lastEmpty_cons]
        have : ¬ EndsEmpty eps ps (.mk [] ⟨none, eps⟩ : Node L T) := endsEmpty_leaf (by
          rintro ⟨q, hq, e⟩
          exact (hw q hq).1 e)
        tauto
      rw [hiff]
      exact ⟨fun hn => .eps _ _ _ (h1 hn), fun hy => .eps _ _ _ (h2 hy)⟩
  | .terminal xs pos t r ht hne htok h, ns, q, he, hq => by
    have ih := seq_cut hw hcf hcand hk h
    have hl := fun ns q (e : r = .found (ns, q)) => seq_len hw hcand (e ▸ h)
    match r, he with
    | .found (ns', q'), he =>
      cases he
      obtain ⟨h1, h2⟩ := ih _ _ rfl hq
      have := hl _ _ rfl
      have htok' : tokens'[pos]? = some t := by rw [hk.1 pos (by omega), htok]
      have hiff : LastEmpty eps ps (.mk [] t :: ns') ↔ LastEmpty eps ps ns' := by
        rw [lastEmpty_cons]
        have : ¬ EndsEmpty eps ps (.mk [] t : Node L T) := endsEmpty_leaf ht
        tauto
      rw [hiff]
      exact ⟨fun hn => .terminal _ _ _ _ ht hne htok' (h1 hn),
        fun hy => .terminal _ _ _ _ ht hne htok' (h2 hy)⟩
  | .mismatch _ _ _ _ _ _, _, _, he, _ => nomatch he
  | .nonTerminal x xs pos t r hx ht h, ns, q, he, hq => by
    have hs := seq_len hw hcand (he ▸ Seq.nonTerminal x xs pos t r hx ht h)
    rcases Nat.lt_or_ge pos k with hlt | hge
    · obtain ⟨h1, h2⟩ := retry_cut hw hcf hcand hk h (hcf _ _) (fun o ho => hcand _ _ _ ho) hlt _ _ he hq
      have ht' : tokens'[pos]? = some t := by rw [hk.1 pos hlt, ht]
      exact ⟨fun hn => .nonTerminal _ _ _ t _ hx ht' (h1 hn),
        fun hy => .nonTerminal _ _ _ t _ hx ht' (h2 hy)⟩
    · have hr : Seq eps ps cand tokens' (x :: xs) pos .ranOut := .ranOut _ _ _ hx (hk.2 pos hge)
      refine ⟨fun hn => absurd ?_ hn, fun _ => hr⟩
      subst he
      obtain ⟨w, h1, _, _⟩ := Parser.seq_sound hcand (Seq.nonTerminal x xs pos t _ hx ht h) _ _ rfl
      cases h1 with
      | cons _ _ _ _ n ns h1 h2 =>
        have hl : leavesList eps (n :: ns) = [] := List.length_eq_zero_iff.1 (by omega)
        simp only [leavesList, List.append_eq_nil_iff] at hl
        refine ⟨by omega, lastEmpty_cons.2 (.inl ⟨hl.2, .here _ ?_ hl.1⟩)⟩
        rw [h1.label]
        exact hx
  | .ranOut _ _ _ _ _, _, _, he, _ => nomatch he
theorem retry_cut (hw : WellFormed eps ps) (hcf : ∀ x a, (cand x a).length ≤ 1)
    (hcand : ∀ x a out, out ∈ cand x a → (⟨x, out⟩ : Production T) ∈ ps) {k : Nat}
    (hk : CutAt tokens tokens' k) {x : T}
    {xs : List T} {pos : Nat} {outs : List (List T)} {r : Search (List (Node L T) × Nat)} :
    Retry eps ps cand tokens x xs pos outs r → outs.length ≤ 1 →
    (∀ o ∈ outs, (⟨x, o⟩ : Production T) ∈ ps) → pos < k → ∀ ns q, r = .found (ns, q) → q ≤ k →
    (¬ (q = k ∧ LastEmpty eps ps ns) → Retry eps ps cand tokens' x xs pos outs (.found (ns, q))) ∧
      (q = k ∧ LastEmpty eps ps ns → Retry eps ps cand tokens' x xs pos outs .ranOut)
  | .failed _ _ _ _ _, _, _, _, _, _, he, _ => nomatch he
  | .ranOut _ _ _ _ _, _, _, _, _, _, he, _ => nomatch he
  | .found x xs pos outs rest n q q' ns h h', hl, ho, hp, _, _, he, hq => by
    cases he
    have hlen := seq_len hw hcand h'
    obtain ⟨h3, h4⟩ := seq_cut hw hcf hcand hk h' _ _ rfl hq
    obtain ⟨_, h1, h2⟩ := choice_cut hw hcf hcand hk h hl ho hp _ _ _ rfl (by omega)
    rw [lastEmpty_cons]
    have hz : leavesList eps ns = [] ↔ q = q' := by
      rw [← List.length_eq_zero_iff]
      omega
    by_cases hn : q = k ∧ EndsEmpty eps ps n
    · have hqq : q' = k := by omega
      have : leavesList eps ns = [] := hz.2 (by omega)
      exact ⟨fun h => absurd ⟨hqq, .inl ⟨this, hn.2⟩⟩ h, fun _ => .ranOut _ _ _ _ (h2 hn)⟩
    · refine ⟨fun hno => .found _ _ _ _ _ _ _ _ _ (h1 hn) (h3 ?_),
        fun hy => .ranOutAfter _ _ _ _ _ _ _ (h1 hn) (h4 ⟨hy.1, ?_⟩)⟩
      · rintro ⟨h5, h6⟩
        exact hno ⟨h5, .inr h6⟩
      · rcases hy.2 with ⟨h5, h6⟩ | h5
        · exact absurd ⟨by rw [hz.1 h5]; exact hy.1, h6⟩ hn
        · exact h5
  | .again x xs pos outs rest n q r h h' h'', hl, _, _, _, _, he, _ => by
    obtain ⟨hrest, _⟩ := choice_ahead (tokens' := tokens') hcf h hl _ _ _ rfl
    subst hrest
    subst he
    cases h'' with
    | found _ _ _ _ _ _ _ _ _ h => cases h
    | again _ _ _ _ _ _ _ _ h => cases h
  | .ranOutAfter _ _ _ _ _ _ _ _ _, _, _, _, _, _, he, _ => nomatch he
end

end Verif.Spec
