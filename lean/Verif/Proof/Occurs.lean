import Verif.Spec.Occurs
import Verif.Proof.Nested
import Verif.Proof.Cut

/-! # The nodes of a tree that was found were searched for where they begin -/

set_option linter.unusedSectionVars false

namespace Verif.Spec

variable {L T : Type} [DecidableEq T] {eps : T} {ps : List (Production T)} {cand : T → T → List (List T)}
  {tokens : List (Token L T)}

/-- A non-terminal and what follows are found with a candidate before which all others are passed over. -/
theorem retry_found {x : T} {xs : List T} {pos : Nat} {outs : List (List T)} {r : List (Node L T)} {k : Nat}
    (h : Retry eps ps cand tokens x xs pos outs (.found (r, k))) :
    ∃ u o v cs q ns, outs = u ++ o :: v ∧ (∀ o' ∈ u, PassedOver eps ps cand tokens xs pos o') ∧
      Seq eps ps cand tokens o pos (.found (cs, q)) ∧ r = .mk cs ⟨none, x⟩ :: ns ∧
      Seq eps ps cand tokens xs q (.found (ns, k)) := by
  generalize hl : outs.length = l
  induction l using Nat.strong_induction_on generalizing outs with
  | _ l ih =>
    cases h with
    | found _ _ _ _ rest n q q' ns hc hs =>
      obtain ⟨u, o, cs, e, hu, ho, rfl⟩ := choiceC_of_choice hc
      exact ⟨u, o, rest, cs, q, ns, e, fun o' h' => .inl (hu o' h'), ho, rfl, hs⟩
    | again _ _ _ _ rest n q _ hc hs h =>
      obtain ⟨u, o, cs, e, hu, ho, rfl⟩ := choiceC_of_choice hc
      obtain ⟨u', o', v', cs', q', ns', e', hu', ho', hr', hs'⟩ :=
        ih rest.length (by rw [← hl, e]; simp; omega) h rfl
      refine ⟨u ++ o :: u', o', v', cs', q', ns', by rw [e, e']; simp, ?_, ho', hr', hs'⟩
      intro o'' h''
      simp only [List.mem_append, List.mem_cons] at h''
      rcases h'' with h'' | rfl | h''
      · exact .inl (hu _ h'')
      · exact .inr ⟨cs, q, ho, hs⟩
      · exact hu' _ h''

theorem LeadsTo.head {xs ys o : List T} {pos pos' q : Nat}
    (hm : ∀ o q, Tries eps ps cand tokens ys pos' o q → Tries eps ps cand tokens xs pos o q)
    (h : LeadsTo eps ps cand tokens ys pos' o q) : LeadsTo eps ps cand tokens xs pos o q := by
  induction h with
  | tries _ _ h => exact .tries _ _ _ _ (hm _ _ h)
  | step _ _ _ _ _ h ih => exact .step _ _ _ _ _ _ ih h

theorem LeadsTo.trans {xs ys o : List T} {pos pos' q : Nat} (h1 : LeadsTo eps ps cand tokens xs pos ys pos')
    (h : LeadsTo eps ps cand tokens ys pos' o q) : LeadsTo eps ps cand tokens xs pos o q := by
  induction h with
  | tries _ _ h => exact .step _ _ _ _ _ _ h1 h
  | step _ _ _ _ _ h ih => exact .step _ _ _ _ _ _ ih h

theorem forest_types {xs : List T} {w : List (Token L T)} {ns : List (Node L T)}
    (h : IsForest eps ps xs w ns) : ns.map (·.token.tType) = xs := by
  induction ns generalizing xs w with
  | nil => cases h; rfl
  | cons n ns ih =>
    cases h with
    | cons x _ _ _ _ _ h1 h2 =>
      rw [List.map_cons, ih h2]
      congr 1
      cases h1 <;> rfl

theorem seq_types (hcand : ∀ x a o, o ∈ cand x a → (⟨x, o⟩ : Production T) ∈ ps) {xs : List T} {pos k : Nat}
    {ns : List (Node L T)} (h : Seq eps ps cand tokens xs pos (.found (ns, k))) :
    ns.map (·.token.tType) = xs := by
  obtain ⟨w, h1, _, _⟩ := Parser.seq_sound hcand h _ _ rfl
  exact forest_types h1

/-- What is found has a first node and further ones. -/
theorem seq_cons_found (hw : WellFormed eps ps)
    (hcand : ∀ x a o, o ∈ cand x a → (⟨x, o⟩ : Production T) ∈ ps) {zs : List T} {pos k : Nat}
    {n : Node L T} {ns : List (Node L T)} (h : Seq eps ps cand tokens zs pos (.found (n :: ns, k))) :
    (n.childNodes ≠ [] → Tries eps ps cand tokens zs pos (childTypes n) pos ∧
      ∃ q, Seq eps ps cand tokens (childTypes n) pos (.found (n.childNodes, q))) ∧
    ∃ xs, Seq eps ps cand tokens xs (pos + (leaves eps n).length) (.found (ns, k)) ∧
      ∀ o q, Tries eps ps cand tokens xs (pos + (leaves eps n).length) o q →
        Tries eps ps cand tokens zs pos o q := by
  generalize hr : Search.found (n :: ns, k) = r at h
  cases h with
  | nil => cases hr
  | eps xs _ r h =>
    match r, hr with
    | .found (ns', k'), hr =>
      simp only [Search.cons, Search.found.injEq, Prod.mk.injEq, List.cons.injEq] at hr
      obtain ⟨⟨rfl, rfl⟩, rfl⟩ := hr
      refine ⟨fun hc => absurd rfl hc, xs, by simpa [leaves] using h, ?_⟩
      intro o q ht
      exact .eps _ _ _ _ (by simpa [leaves] using ht)
  | terminal xs _ t r h1 h2 h3 h =>
    match r, hr with
    | .found (ns', k'), hr =>
      simp only [Search.cons, Search.found.injEq, Prod.mk.injEq, List.cons.injEq] at hr
      obtain ⟨⟨rfl, rfl⟩, rfl⟩ := hr
      refine ⟨fun hc => absurd rfl hc, xs, by simpa [leaves, h2] using h, ?_⟩
      intro o q ht
      exact .terminal _ _ _ _ _ h1 h2 h3 (by simpa [leaves, h2] using ht)
  | mismatch => cases hr
  | nonTerminal x xs _ t _ h1 h2 h =>
    rw [← hr] at h
    obtain ⟨u, o, v, cs, q, ns', e, hu, ho, e', hs⟩ := retry_found h
    simp only [List.cons.injEq] at e'
    obtain ⟨rfl, rfl⟩ := e'
    have hq := seq_len hw hcand ho
    have htypes : childTypes (.mk cs ⟨none, x⟩ : Node L T) = o := seq_types hcand ho
    have hne : cs ≠ [] := by
      rintro rfl
      have : o = [] := by simpa [childTypes, Node.childNodes] using htypes.symm
      exact (hw ⟨x, o⟩ (hcand x t.tType o (by rw [e]; simp))).2.1 this
    have hl : leaves eps (.mk cs ⟨none, x⟩ : Node L T) = leavesList eps cs := by
      cases cs with
      | nil => exact absurd rfl hne
      | cons c cs => rfl
    refine ⟨fun _ => ?_, xs, ?_, ?_⟩
    · rw [htypes]
      exact ⟨.candidate _ _ _ t u o v h1 h2 e hu, q, ho⟩
    · rw [hl, ← hq]; exact hs
    · rw [hl, ← hq]
      intro o' q' ht
      exact .behind _ _ _ t u o v cs q _ _ h1 h2 e hu ho ht
  | ranOut => cases hr

/-- A node with children that occurs in what was found was searched for where it begins. -/
theorem leadsTo_of_occurs (hw : WellFormed eps ps)
    (hcand : ∀ x a o, o ∈ cand x a → (⟨x, o⟩ : Production T) ∈ ps) {ns : List (Node L T)} {i j : Nat}
    {m : Node L T} (h : Occurs eps ns i m j) {xs : List T} {k : Nat}
    (hs : Seq eps ps cand tokens xs i (.found (ns, k))) (hm : m.childNodes ≠ []) :
    LeadsTo eps ps cand tokens xs i (childTypes m) j ∧
      ∃ q, Seq eps ps cand tokens (childTypes m) j (.found (m.childNodes, q)) := by
  induction h generalizing xs k with
  | here n ns i =>
    obtain ⟨h1, h2⟩ := (seq_cons_found hw hcand hs).1 hm
    exact ⟨.tries _ _ _ _ h1, h2⟩
  | behind n ns i m j _ ih =>
    obtain ⟨xs', h1, h2⟩ := (seq_cons_found hw hcand hs).2
    obtain ⟨h3, h4⟩ := ih h1 hm
    exact ⟨h3.head h2, h4⟩
  | inside cs t ns i m j ho ih =>
    have hne : cs ≠ [] := by rintro rfl; cases ho
    obtain ⟨h1, q, h2⟩ := (seq_cons_found hw hcand hs).1 hne
    obtain ⟨h3, h4⟩ := ih h2 hm
    exact ⟨(LeadsTo.tries _ _ _ _ h1).trans h3, h4⟩

/-- No node occurs below a node that begins at the same position and has children of the same types. -/
theorem no_repeat (hw : WellFormed eps ps)
    (hcand : ∀ x a o, o ∈ cand x a → (⟨x, o⟩ : Production T) ∈ ps) {ns : List (Node L T)} {i k : Nat}
    {xs : List T} (hs : Seq eps ps cand tokens xs i (.found (ns, k))) {n m : Node L T} {j : Nat}
    (hn : Occurs eps ns i n j) (hm : Occurs eps n.childNodes j m j) (hc : m.childNodes ≠ []) :
    childTypes n ≠ childTypes m := by
  intro he
  have heps : ¬ IsNonTerminal ps eps := fun ⟨q, hq, e⟩ => (hw q hq).1 e
  have hnc : n.childNodes ≠ [] := by
    intro h
    rw [h] at hm
    cases hm
  obtain ⟨h1, q, h2⟩ := leadsTo_of_occurs hw hcand hn hs hnc
  obtain ⟨h3, _⟩ := leadsTo_of_occurs hw hcand hm h2 hc
  rw [← he] at h3
  exact (no_seq_iff hcand heps).2 ⟨_, _, h1, h3⟩ ⟨_, hs⟩

end Verif.Spec
