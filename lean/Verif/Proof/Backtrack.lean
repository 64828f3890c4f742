import Verif.Spec.Backtrack
import Verif.Proof.LL1

/-! # When retrying one symbol is enough, sentences are found -/

set_option linter.unusedSectionVars false

namespace Verif.Parser

open Spec

variable {σ L T : Type} [DecidableEq T] {eps init e : T} {ps : List (Production T)}
  {p : Parser σ L T} {tokens : List (Token L T)} {cand : T → T → List (List T)}

theorem forest_cons {x : T} {xs : List T} {w : List (Token L T)} {n : Node L T} {i q : Nat}
    {ns : List (Node L T)} (h1 : IsTree eps ps x w n) (h : w <+: tokens.drop i)
    (h' : ∃ w', IsForest eps ps xs w' ns ∧ w' <+: tokens.drop (i + w.length) ∧
      q = i + w.length + w'.length) :
    ∃ w', IsForest eps ps (x :: xs) w' (n :: ns) ∧ w' <+: tokens.drop i ∧ q = i + w'.length := by
  obtain ⟨u, hu⟩ := h
  obtain ⟨w', h2, h3, h4⟩ := h'
  refine ⟨w ++ w', .cons _ _ _ _ _ _ h1 h2, ?_, by simp; omega⟩
  rw [← List.drop_drop, ← hu, List.drop_left] at h3
  rw [← hu]
  exact (List.prefix_append_right_inj _).2 h3

mutual
/-- What a search finds is a parse tree. -/
theorem choice_sound (hcand : ∀ x a out, out ∈ cand x a → (⟨x, out⟩ : Production T) ∈ ps) {x : T}
    {pos : Nat} {outs : List (List T)} {r : Search (Node L T × Nat × List (List T))} :
    Choice eps ps cand tokens x pos outs r →
    (∀ o ∈ outs, (⟨x, o⟩ : Production T) ∈ ps) → ∀ n q rest, r = .found (n, q, rest) →
    (∃ w, IsTree eps ps x w n ∧ w <+: tokens.drop pos ∧ q = pos + w.length) ∧
      rest.Sublist outs
  | .none _ _, _, _, _, _, he => nomatch he
  | .here _ _ out outs ns q h, ho, _, _, _, he => by
    cases he
    obtain ⟨w, h1, h2, h3⟩ := seq_sound hcand h _ _ rfl
    exact ⟨⟨w, .node ⟨x, out⟩ _ _ (ho out (by simp)) h1, h2, h3⟩, by simp⟩
  | .next _ _ out outs r _ h, ho, n, q, rest, he => by
    obtain ⟨h1, h2⟩ := choice_sound hcand h (fun o h' => ho o (by simp [h'])) n q rest he
    exact ⟨h1, h2.cons _⟩
  | .ranOut _ _ _ _ _, _, _, _, _, he => nomatch he
/-- What a search finds is a sequence of parse trees. -/
theorem seq_sound (hcand : ∀ x a out, out ∈ cand x a → (⟨x, out⟩ : Production T) ∈ ps)
    {xs : List T} {pos : Nat} {r : Search (List (Node L T) × Nat)} :
    Seq eps ps cand tokens xs pos r → ∀ ns q, r = .found (ns, q) →
    ∃ w, IsForest eps ps xs w ns ∧ w <+: tokens.drop pos ∧ q = pos + w.length
  | .nil _, _, _, he => by
    cases he
    exact ⟨[], .nil, by simp, by simp⟩
  | .eps xs pos r h, ns, q, he => by
    have ih := seq_sound hcand h
    match r, he with
    | .found (l, q'), he =>
      cases he
      exact forest_cons (w := []) .eps (by simp) (by simpa using ih _ _ rfl)
  | .terminal xs pos t r h1 h2 h3 h, ns, q, he => by
    have ih := seq_sound hcand h
    match r, he with
    | .found (l, q'), he =>
      cases he
      obtain ⟨hlt, hget⟩ := List.getElem?_eq_some_iff.1 h3
      refine forest_cons (w := [t]) (.leaf t h1 h2) ?_ (ih _ _ rfl)
      rw [List.drop_eq_getElem_cons hlt, hget]
      simp
  | .mismatch _ _ _ _ _ _, _, _, he => nomatch he
  | .nonTerminal x xs pos t r hx ht h, ns, q, he =>
    retry_sound hcand h (fun o ho => hcand _ _ _ ho) ns q he
  | .ranOut _ _ _ _ _, _, _, he => nomatch he
theorem retry_sound (hcand : ∀ x a out, out ∈ cand x a → (⟨x, out⟩ : Production T) ∈ ps) {x : T}
    {xs : List T} {pos : Nat} {outs : List (List T)} {r : Search (List (Node L T) × Nat)} :
    Retry eps ps cand tokens x xs pos outs r →
    (∀ o ∈ outs, (⟨x, o⟩ : Production T) ∈ ps) → ∀ ns q, r = .found (ns, q) →
    ∃ w, IsForest eps ps (x :: xs) w ns ∧ w <+: tokens.drop pos ∧ q = pos + w.length
  | .failed _ _ _ _ _, _, _, _, he => nomatch he
  | .ranOut _ _ _ _ _, _, _, _, he => nomatch he
  | .found x xs pos outs rest n q q' ns h h', ho, ns', q'', he => by
    cases he
    obtain ⟨⟨w, h1, h2, h3⟩, _⟩ := choice_sound hcand h ho _ _ _ rfl
    exact forest_cons h1 h2 (h3 ▸ seq_sound hcand h' _ _ rfl)
  | .again x xs pos outs rest n q r h _ h', ho, ns', q'', he =>
    retry_sound hcand h'
      (fun o ho' => ho o ((choice_sound hcand h ho _ _ _ rfl).2.subset ho')) _ _ he
  | .ranOutAfter _ _ _ _ _ _ _ _ _, _, _, _, he => nomatch he
end

/-- A tree is in a context that the table knows: the next token can follow its label, or it does not
end with an empty non-terminal. -/
def InContext (eps : T) (ps : List (Production T)) (x : T) (n : Node L T)
    (post : List (Token L T)) : Prop :=
  (∃ t post', post = t :: post' ∧ CanFollow eps ps x t.tType) ∨ ¬ EndsEmpty eps ps n

/-- The same for the trees of the last symbols of a production of `A`. -/
def InContexts (eps : T) (ps : List (Production T)) (A : T) (ns : List (Node L T))
    (post : List (Token L T)) : Prop :=
  (∃ t post', post = t :: post' ∧ CanFollow eps ps A t.tType) ∨
    ¬ ∃ a c b, ns = a ++ c :: b ∧ leavesList eps b = [] ∧ EndsEmpty eps ps c

theorem InContext.children {x : T} {ns : List (Node L T)} {t : Token L T} {post : List (Token L T)}
    (h : InContext eps ps x (.mk ns t) post) : InContexts eps ps x ns post := by
  rcases h with h | h
  · exact .inl h
  · refine .inr ?_
    rintro ⟨a, c, b, rfl, hb, hc⟩
    exact h (.last a c b _ hb hc)

theorem InContexts.tail {A : T} {n : Node L T} {ns : List (Node L T)} {post : List (Token L T)}
    (h : InContexts eps ps A (n :: ns) post) : InContexts eps ps A ns post := by
  rcases h with h | h
  · exact .inl h
  · refine .inr ?_
    rintro ⟨a, c, b, rfl, hb, hc⟩
    exact h ⟨n :: a, c, b, rfl, hb, hc⟩

theorem InContexts.head (hw : WellFormed eps ps) {A x : T} {before xs : List T}
    (hmem : (⟨A, before ++ x :: xs⟩ : Production T) ∈ ps) (hx : IsNonTerminal ps x) {n : Node L T}
    {w2 : List (Token L T)} {ns : List (Node L T)} {post : List (Token L T)}
    (h2 : IsForest eps ps xs w2 ns) (hctx : InContexts eps ps A (n :: ns) post) :
    InContext eps ps x n (w2 ++ post) := by
  have hne : eps ∉ before ++ x :: xs := by
    intro hm
    have := (hw _ hmem).2.2 hm
    have hb : before = [] ∧ xs = [] := by
      simp only [List.length_append, List.length_cons] at this
      exact ⟨List.length_eq_zero_iff.1 (by omega), List.length_eq_zero_iff.1 (by omega)⟩
    obtain ⟨rfl, rfl⟩ := hb
    simp only [List.nil_append, List.mem_singleton] at hm
    obtain ⟨q, hq, hqe⟩ := hx
    exact (hw q hq).1 (hqe.trans hm.symm)
  have hrhs : rhs eps (⟨A, before ++ x :: xs⟩ : Production T) = before ++ x :: xs := by
    unfold rhs
    rw [if_neg]
    intro he
    apply hne
    simp only at he
    rw [he]; simp
  have hprod := Derives.of_production (eps := eps) hmem
  rw [hrhs] at hprod
  simp only at hprod
  have hdrest := IsForest.derives hw (xs := xs) (fun h' => hne (by simp [h'])) h2
  have hstep : Derives eps ps [A] (before ++ x :: w2.map (·.tType)) := by
    refine hprod.trans ?_
    have := hdrest.context (before ++ [x]) []
    simpa using this
  cases hw2 : w2 with
  | cons t w2' =>
    subst hw2
    have ht := IsForest.terminals h2 (fun y hy => ⟨_, hmem, by simp [hy]⟩) t (by simp)
    refine .inl ⟨t, w2' ++ post, rfl, ht.1, ht.2, A, before, _, ⟨_, hmem, rfl⟩, hstep⟩
  | nil =>
    subst hw2
    rcases hctx with ⟨t, post', rfl, h3, h4, N, u, v, hN, hd⟩ | hctx
    · refine .inl ⟨t, post', rfl, h3, h4, N, u ++ before, v, hN, hd.trans ?_⟩
      have := hstep.context u (t.tType :: v)
      simpa using this
    · refine .inr fun hc => hctx ⟨[], n, ns, rfl, IsForest.leaves hw h2, hc⟩

theorem drop_add {pos : Nat} {w v : List (Token L T)} (h : tokens.drop pos = w ++ v) :
    tokens.drop (pos + w.length) = v := by
  rw [← List.drop_drop, h, List.drop_left]

mutual
/-- If there is a tree in context, the search for its label does not fail; and where it ends. -/
theorem choice_complete (P : TableParser eps init ps p)
    (hfc : ∀ x a, IsNonTerminal ps x → CanFollow eps ps x a → FollowRule eps ps x a)
    (hsuff : RetriesSuffice eps ps p.getTokenProductions tokens) {x : T}
    {pos : Nat} {outs : List (List T)} {r : Search (Node L T × Nat × List (List T))} :
    Choice eps ps p.getTokenProductions tokens x pos outs r →
    ∀ out ∈ outs, (∀ o ∈ outs, (⟨x, o⟩ : Production T) ∈ ps) → ∀ w ns post,
    IsForest eps ps out w ns → tokens.drop pos = w ++ post → InContexts eps ps x ns post →
    r = .ranOut ∨ ∃ n q rest, r = .found (n, q, rest) ∧
      (outs.length ≤ 1 ∨ EndsOnce eps ps tokens [x] pos → q = pos + w.length) ∧
      ((∀ o ∈ outs, EndsOnce eps ps tokens o pos) → q = pos + w.length ∨ out ∈ rest)
  | .none _ _, out, hout, _, _, _, _, _, _, _ => nomatch hout
  | .here x pos out' outs ms q h, out, hout, ho, w, ns, post, hf, htok, hctx => by
    have ih := seq_complete P hfc hsuff h
    refine .inr ⟨_, _, _, rfl, ?_, ?_⟩
    · rintro (hl | hl)
      · have : outs = [] := by cases outs <;> simp at hl ⊢
        subst this
        simp only [List.mem_singleton] at hout
        subst hout
        rcases ih x [] (ho _ (by simp)) w ns post hf htok hctx with h1 | h1
        · cases h1
        · obtain ⟨ns', h1⟩ := h1
          cases h1
          rfl
      · obtain ⟨w', h1, h2, h3⟩ := seq_sound P.cand h _ _ rfl
        have := hl w w' _ _
          (IsForest.single (.node ⟨x, out⟩ _ _ (ho out hout) hf))
          (IsForest.single (.node ⟨x, out'⟩ _ _ (ho out' (by simp)) h1))
          ⟨post, htok.symm⟩ h2
        omega
    · intro hall
      rcases List.mem_cons.1 hout with rfl | hout
      · left
        obtain ⟨w', h1, h2, h3⟩ := seq_sound P.cand h _ _ rfl
        have := hall out (by simp) w w' _ _ hf h1 ⟨post, htok.symm⟩ h2
        omega
      · exact .inr hout
  | .next x pos out' outs r h h', out, hout, ho, w, ns, post, hf, htok, hctx => by
    have ih := seq_complete P hfc hsuff h
    have ih' := choice_complete P hfc hsuff h'
    rcases List.mem_cons.1 hout with rfl | hout
    · rcases ih x [] (ho _ (by simp)) w ns post hf htok hctx with h1 | h1
      · cases h1
      · obtain ⟨ns', h1⟩ := h1
        cases h1
    · rcases ih' out hout (fun o h' => ho o (by simp [h'])) w ns post hf
        htok hctx with h1 | ⟨n, q, rest, rfl, h2, h3⟩
      · exact .inl h1
      · refine .inr ⟨n, q, rest, rfl, ?_, fun hall => h3 fun o h' => hall o (by simp [h'])⟩
        rintro (hl | hl)
        · exfalso
          simp only [List.length_cons] at hl
          have : outs = [] := List.length_eq_zero_iff.1 (by omega)
          simp [this] at hout
        · exact h2 (.inr hl)
  | .ranOut _ _ _ _ _, _, _, _, _, _, _, _, _, _ => .inl rfl
theorem seq_complete (P : TableParser eps init ps p)
    (hfc : ∀ x a, IsNonTerminal ps x → CanFollow eps ps x a → FollowRule eps ps x a)
    (hsuff : RetriesSuffice eps ps p.getTokenProductions tokens)
    {xs : List T} {pos : Nat} {r : Search (List (Node L T) × Nat)} :
    Seq eps ps p.getTokenProductions tokens xs pos r → ∀ A before,
    (⟨A, before ++ xs⟩ : Production T) ∈ ps → ∀ w ns post, IsForest eps ps xs w ns →
    tokens.drop pos = w ++ post → InContexts eps ps A ns post →
    r = .ranOut ∨ ∃ ns', r = .found (ns', pos + w.length)
  | .nil _, _, _, _, _, _, _, hf, _, _ => by
    cases hf
    exact .inr ⟨_, rfl⟩
  | .eps xs pos r h, A, before, hmem, w, ns, post, hf, htok, hctx => by
    have ih := seq_complete P hfc hsuff h
    cases hf with
    | cons _ _ w1 w2 n ns h1 h2 =>
      have hnil : w1 = [] := by
        rcases isTree_derives P.grammar.wf h1 with h' | h'
        · exact h'.2
        · exact absurd rfl h'.1
      subst hnil
      rcases ih A (before ++ [eps]) (by simpa using hmem) w2 ns post h2 htok
        hctx.tail with rfl | ⟨ns', rfl⟩
      · exact .inl rfl
      · exact .inr ⟨_, rfl⟩
  | .terminal xs pos t r hnt hne ht h, A, before, hmem, w, ns, post, hf, htok, hctx => by
    have ih := seq_complete P hfc hsuff h
    cases hf with
    | cons _ _ w1 w2 n ns h1 h2 =>
      generalize hx : t.tType = x at h1
      cases h1 with
      | node q _ _ hq => exact absurd ⟨q, hq, hx.symm⟩ hnt
      | eps => exact absurd hx hne
      | leaf t' =>
        rw [List.append_assoc] at htok
        have htok' := drop_add htok
        rcases ih A (before ++ [t.tType]) (by simpa using hmem) w2 ns post h2
          htok' hctx.tail with rfl | ⟨ns', rfl⟩
        · exact .inl rfl
        · refine .inr ⟨.mk [] t :: ns', ?_⟩
          simp [Search.cons, Nat.add_assoc, Nat.add_comm]
  | .mismatch x xs pos hnt hne hmis, A, before, hmem, w, ns, post, hf, htok, hctx => by
    exfalso
    cases hf with
    | cons _ _ w1 w2 n ns h1 h2 =>
      cases h1 with
      | node q _ _ hq => exact hnt ⟨q, hq, rfl⟩
      | eps => exact hne rfl
      | leaf t =>
        refine hmis t ?_ rfl
        have := congrArg (·[0]?) htok
        simpa using this
  | .nonTerminal x xs pos t r hx ht h, A, before, hmem, w, ns, post, hf, htok, hctx => by
    have ih := retry_complete P hfc hsuff h
    cases hf with
    | cons _ _ w1 w2 n ns h1 h2 =>
      have hc := hctx.head P.grammar.wf hmem hx h2
      cases h1 with
      | leaf t' hnt => exact absurd hx hnt
      | eps =>
        obtain ⟨q, hq, hqe⟩ := hx
        exact absurd hqe (P.grammar.wf q hq).1
      | node q _ ms hq hf =>
        obtain ⟨t', r', e1, e2⟩ := cand_of_tree P.toParserOf (P.covers hfc) hq hf hc
        have ht' : t' = t := by
          rw [List.append_assoc, e1] at htok
          have := congrArg (·[0]?) htok
          simp only [List.getElem?_drop, Nat.add_zero, ht, List.getElem?_cons_zero,
            Option.some.injEq] at this
          exact this.symm
        subst ht'
        exact ih q.output e2 (fun o ho => P.cand _ _ _ ho) A before hmem
          w1 w2 ms _ ns post hf h2 htok hctx hc.children (hsuff _ hmem before _ xs rfl hx pos t' ht)
  | .ranOut _ _ _ _ _, _, _, _, _, _, _, _, _, _ => .inl rfl
theorem retry_complete (P : TableParser eps init ps p)
    (hfc : ∀ x a, IsNonTerminal ps x → CanFollow eps ps x a → FollowRule eps ps x a)
    (hsuff : RetriesSuffice eps ps p.getTokenProductions tokens) {x : T}
    {xs : List T} {pos : Nat} {outs : List (List T)} {r : Search (List (Node L T) × Nat)} :
    Retry eps ps p.getTokenProductions tokens x xs pos outs r →
    ∀ out ∈ outs, (∀ o ∈ outs, (⟨x, o⟩ : Production T) ∈ ps) → ∀ A before,
    (⟨A, before ++ x :: xs⟩ : Production T) ∈ ps →
    ∀ w1 w2 ms n ns post, IsForest eps ps out w1 ms → IsForest eps ps xs w2 ns →
    tokens.drop pos = w1 ++ w2 ++ post → InContexts eps ps A (n :: ns) post →
    InContexts eps ps x ms (w2 ++ post) →
    (outs.length ≤ 1 ∨ EndsOnce eps ps tokens [x] pos ∨
      ((∀ out ∈ outs, EndsOnce eps ps tokens out pos) ∧ EndsOnce eps ps tokens (x :: xs) pos)) →
    r = .ranOut ∨ ∃ ns', r = .found (ns', pos + (w1 ++ w2).length)
  | .failed x xs pos outs h, out, hout, ho, A, before, hmem, w1, w2, ms, n, ns, post, hf, hf2, htok,
      hctx, hc, hs => by
    exfalso
    rcases choice_complete P hfc hsuff h out hout ho w1 ms (w2 ++ post) hf (by simpa using htok) hc
      with h1 | ⟨_, _, _, h1, _⟩ <;> cases h1
  | .ranOut _ _ _ _ _, _, _, _, _, _, _, _, _, _, _, _, _, _, _, _, _, _, _ => .inl rfl
  | .found x xs pos outs rest n' q q' ns' h h', out, hout, ho, A, before, hmem, w1, w2, ms, n, ns,
      post, hf, hf2, htok, hctx, hc, hs => by
    have ih := seq_complete P hfc hsuff h'
    suffices hq : q' = pos + (w1 ++ w2).length from .inr ⟨n' :: ns', by rw [hq]⟩
    rw [List.append_assoc] at htok
    rcases choice_complete P hfc hsuff h out hout ho w1 ms (w2 ++ post) hf htok hc
      with h1 | ⟨_, _, _, h1, h2, h3⟩ <;> cases h1
    have hright : q = pos + w1.length → q' = pos + (w1 ++ w2).length := by
      rintro rfl
      rcases ih A (before ++ [x]) (by simpa using hmem) w2 ns post hf2
        (drop_add htok) hctx.tail with h4 | ⟨ns', h4⟩ <;> cases h4
      simp; omega
    rcases hs with hs | hs | ⟨_, hs⟩
    · exact hright (h2 (.inl hs))
    · exact hright (h2 (.inr hs))
    · obtain ⟨⟨v, g1, g2, g3⟩, _⟩ := choice_sound P.cand h ho _ _ _ rfl
      obtain ⟨u, k1, k2, k3⟩ := forest_cons g1 g2 (g3 ▸ seq_sound P.cand h' _ _ rfl)
      have := hs (w1 ++ w2) u _ _
        (.cons _ _ _ _ _ _ (.node ⟨x, out⟩ _ _ (ho out hout) hf) hf2) k1
        ⟨post, by rw [htok]; simp⟩ k2
      omega
  | .again x xs pos outs rest n' q r h h' h'', out, hout, ho, A, before, hmem, w1, w2, ms, n, ns,
      post, hf, hf2, htok, hctx, hc, hs => by
    have ih := seq_complete P hfc hsuff h'
    have ih' := retry_complete P hfc hsuff h''
    have htok' := htok
    rw [List.append_assoc] at htok
    rcases choice_complete P hfc hsuff h out hout ho w1 ms (w2 ++ post) hf htok hc
      with h1 | ⟨_, _, _, h1, h2, h3⟩ <;> cases h1
    have hright : q ≠ pos + w1.length := by
      rintro rfl
      rcases ih A (before ++ [x]) (by simpa using hmem) w2 ns post hf2
        (drop_add htok) hctx.tail with h4 | ⟨ns', h4⟩ <;> cases h4
    rcases hs with hs | hs | ⟨hs, hs'⟩
    · exact absurd (h2 (.inl hs)) hright
    · exact absurd (h2 (.inr hs)) hright
    · have hr := (h3 hs).resolve_left hright
      have hsub := (choice_sound P.cand h ho _ _ _ rfl).2
      exact ih' out hr (fun o h' => ho o (hsub.subset h')) A before hmem
        w1 w2 ms n ns post hf hf2 htok' hctx hc
        (.inr (.inr ⟨fun o h' => hs o (hsub.subset h'), hs'⟩))
  | .ranOutAfter _ _ _ _ _ _ _ _ _, _, _, _, _, _, _, _, _, _, _, _, _, _, _, _, _, _, _ => .inl rfl
end

end Verif.Parser
