import Verif.Proof.Congr
import Verif.Props.Choice

/-! # Candidate lists that decide every ordered search in the same way -/

set_option linter.unusedSectionVars false

namespace Verif.Spec

variable {L T : Type}

/-- An ordered search over a list: the first element that is not skipped gives the result, and if all
are skipped the search fails. -/
inductive Runs {α β : Type} (skip : α → Prop) (stop : α → Search β → Prop) :
    List α → Search β → Prop where
  | nil : Runs skip stop [] .failed
  | stop {o : α} {l : List α} {r : Search β} : stop o r → Runs skip stop (o :: l) r
  | skip {o : α} {l : List α} {r : Search β} : skip o → Runs skip stop l r → Runs skip stop (o :: l) r

namespace Runs

variable {α β : Type} {skip : α → Prop} {stop : α → Search β → Prop}

theorem append_skip {u v : List α} {r : Search β} (hu : ∀ o ∈ u, skip o) (h : Runs skip stop v r) :
    Runs skip stop (u ++ v) r := by
  induction u with
  | nil => exact h
  | cons o u ih =>
    exact .skip (hu o (List.mem_cons_self)) (ih fun o' ho => hu o' (List.mem_cons_of_mem _ ho))

theorem append_cases {u v : List α} {r : Search β} (h : Runs skip stop (u ++ v) r) :
    (∀ w, Runs skip stop (u ++ w) r) ∨ ((∀ o ∈ u, skip o) ∧ Runs skip stop v r) := by
  induction u with
  | nil => exact .inr ⟨by simp, h⟩
  | cons o u ih =>
    cases h with
    | stop h => exact .inl fun w => .stop h
    | skip hs h =>
      rcases ih h with h | ⟨h1, h2⟩
      · exact .inl fun w => .skip hs (h w)
      · refine .inr ⟨?_, h2⟩
        intro o' ho'
        rcases List.mem_cons.1 ho' with rfl | ho'
        · exact hs
        · exact h1 o' ho'

/-- A copy of an element further back does not matter. -/
theorem insert {u v : List α} {o : α} (ho : o ∈ u) {r : Search β} (h : Runs skip stop (u ++ v) r) :
    Runs skip stop (u ++ o :: v) r := by
  rcases append_cases h with h | ⟨h1, h2⟩
  · exact h _
  · exact append_skip h1 (.skip (h1 o ho) h2)

theorem remove {u v : List α} {o : α} (ho : o ∈ u)
    (hd : ∀ r, skip o → ¬ stop o r) {r : Search β} (h : Runs skip stop (u ++ o :: v) r) :
    Runs skip stop (u ++ v) r := by
  rcases append_cases h with h | ⟨h1, h2⟩
  · exact h _
  · cases h2 with
    | stop h => exact absurd h (hd _ (h1 o ho))
    | skip _ h => exact append_skip h1 h

end Runs

variable {eps : T} {ps ps' : List (Production T)} {cand cand' : T → T → List (List T)}
  {tokens : List (Token L T)}

/-- The candidate is passed over: it fails, or what stands behind it does. -/
def SkipC (eps : T) (ps : List (Production T)) (cand : T → T → List (List T))
    (tokens : List (Token L T)) (xs : List T) (pos : Nat) (o : List T) : Prop :=
  Seq eps ps cand tokens o pos .failed ∨
    ∃ ns q, Seq eps ps cand tokens o pos (.found (ns, q)) ∧ Seq eps ps cand tokens xs q .failed

/-- The candidate ends the search. -/
def StopC (eps : T) (ps : List (Production T)) (cand : T → T → List (List T))
    (tokens : List (Token L T)) (x : T) (xs : List T) (pos : Nat) (o : List T)
    (r : Search (List (Node L T) × Nat)) : Prop :=
  (Seq eps ps cand tokens o pos .ranOut ∧ r = .ranOut) ∨
    ∃ ns q, Seq eps ps cand tokens o pos (.found (ns, q)) ∧
      ((Seq eps ps cand tokens xs q .ranOut ∧ r = .ranOut) ∨
        ∃ ms q', Seq eps ps cand tokens xs q (.found (ms, q')) ∧
          r = .found (.mk ns ⟨none, x⟩ :: ms, q'))

/-- A result of `Choice`, told for the candidates. -/
def ChoiceC (eps : T) (ps : List (Production T)) (cand : T → T → List (List T))
    (tokens : List (Token L T)) (x : T) (pos : Nat) (outs : List (List T)) :
    Search (Node L T × Nat × List (List T)) → Prop
  | .failed => ∀ o ∈ outs, Seq eps ps cand tokens o pos .failed
  | .ranOut => ∃ u o v, outs = u ++ o :: v ∧ (∀ o ∈ u, Seq eps ps cand tokens o pos .failed) ∧
      Seq eps ps cand tokens o pos .ranOut
  | .found (n, q, rest) => ∃ u o ns, outs = u ++ o :: rest ∧
      (∀ o ∈ u, Seq eps ps cand tokens o pos .failed) ∧
      Seq eps ps cand tokens o pos (.found (ns, q)) ∧ n = .mk ns ⟨none, x⟩

theorem choiceC_next {x : T} {pos : Nat} {o : List T} {outs : List (List T)}
    {r : Search (Node L T × Nat × List (List T))} (ho : Seq eps ps cand tokens o pos .failed)
    (h : ChoiceC eps ps cand tokens x pos outs r) :
    ChoiceC eps ps cand tokens x pos (o :: outs) r := by
  have key : ∀ u : List (List T), (∀ o ∈ u, Seq eps ps cand tokens o pos .failed) →
      ∀ o' ∈ o :: u, Seq eps ps cand tokens o' pos .failed := by
    intro u hu o' ho'
    rcases List.mem_cons.1 ho' with rfl | ho'
    · exact ho
    · exact hu o' ho'
  match r, h with
  | .failed, h => exact key _ h
  | .ranOut, ⟨u, o1, v, h1, h2, h3⟩ => exact ⟨o :: u, o1, v, by rw [h1]; rfl, key _ h2, h3⟩
  | .found (n, q, rest), ⟨u, o1, ns, h1, h2, h3⟩ =>
    exact ⟨o :: u, o1, ns, by rw [h1]; rfl, key _ h2, h3⟩

theorem choice_of_choiceC {x : T} {pos : Nat} {outs : List (List T)}
    {r : Search (Node L T × Nat × List (List T))} (h : ChoiceC eps ps cand tokens x pos outs r) :
    Choice eps ps cand tokens x pos outs r := by
  have key : ∀ (u v : List (List T)) r, (∀ o ∈ u, Seq eps ps cand tokens o pos .failed) →
      Choice eps ps cand tokens x pos v r → Choice eps ps cand tokens x pos (u ++ v) r := by
    intro u v r hu hv
    induction u with
    | nil => exact hv
    | cons o u ih =>
      exact .next _ _ _ _ _ (hu o (List.mem_cons_self)) (ih fun o' ho => hu o' (List.mem_cons_of_mem _ ho))
  match r, h with
  | .failed, h =>
    have := key outs [] .failed h (.none _ _)
    rwa [List.append_nil] at this
  | .ranOut, ⟨u, o1, v, h1, h2, h3⟩ =>
    rw [h1]
    exact key _ _ _ h2 (.ranOut _ _ _ _ h3)
  | .found (n, q, rest), ⟨u, o1, ns, h1, h2, h3, h4⟩ =>
    rw [h1, h4]
    exact key _ _ _ h2 (.here _ _ _ _ _ _ h3)

theorem retry_of_runs {x : T} {xs : List T} {pos : Nat} {outs : List (List T)}
    {r : Search (List (Node L T) × Nat)}
    (h : Runs (SkipC eps ps cand tokens xs pos) (StopC eps ps cand tokens x xs pos) outs r) :
    Retry eps ps cand tokens x xs pos outs r := by
  induction h with
  | nil => exact .failed _ _ _ _ (.none _ _)
  | stop h =>
    rcases h with ⟨h, rfl⟩ | ⟨ns, q, h, ⟨h', rfl⟩ | ⟨ms, q', h', rfl⟩⟩
    · exact .ranOut _ _ _ _ (.ranOut _ _ _ _ h)
    · exact .ranOutAfter _ _ _ _ _ _ _ (.here _ _ _ _ _ _ h) h'
    · exact .found _ _ _ _ _ _ _ _ _ (.here _ _ _ _ _ _ h) h'
  | skip hs _ ih =>
    rcases hs with h | ⟨ns, q, h, h'⟩
    · cases ih with
      | failed _ _ _ _ hc => exact .failed _ _ _ _ (.next _ _ _ _ _ h hc)
      | ranOut _ _ _ _ hc => exact .ranOut _ _ _ _ (.next _ _ _ _ _ h hc)
      | found _ _ _ _ _ _ _ _ _ hc hq => exact .found _ _ _ _ _ _ _ _ _ (.next _ _ _ _ _ h hc) hq
      | again _ _ _ _ _ _ _ _ hc hq hr => exact .again _ _ _ _ _ _ _ _ (.next _ _ _ _ _ h hc) hq hr
      | ranOutAfter _ _ _ _ _ _ _ hc hq => exact .ranOutAfter _ _ _ _ _ _ _ (.next _ _ _ _ _ h hc) hq
    · exact .again _ _ _ _ _ _ _ _ (.here _ _ _ _ _ _ h) h' ih

/-! ## The search is deterministic -/

mutual
theorem choice_det' (he : ¬ IsNonTerminal ps eps) {x : T} {pos : Nat} {outs : List (List T)}
    {r : Search (Node L T × Nat × List (List T))} :
    Choice eps ps cand tokens x pos outs r → ∀ r', Choice eps ps cand tokens x pos outs r' → r = r'
  | .none _ _ => fun r' h' => by cases h'; rfl
  | .here _ _ _ _ _ _ h => fun r' h' => by
      have ih := seq_det he h
      cases h' with
      | here _ _ _ _ _ _ h' => have := ih _ h'; simp at this; rw [this.1, this.2]
      | next _ _ _ _ _ h' _ => exact absurd (ih _ h') (by simp)
      | ranOut _ _ _ _ h' => exact absurd (ih _ h') (by simp)
  | .next _ _ _ _ _ h hc => fun r' h' => by
      have ih := seq_det he h
      have ih2 := choice_det' he hc
      cases h' with
      | here _ _ _ _ _ _ h' => exact absurd (ih _ h') (by simp)
      | next _ _ _ _ _ _ h' => exact ih2 _ h'
      | ranOut _ _ _ _ h' => exact absurd (ih _ h') (by simp)
  | .ranOut _ _ _ _ h => fun r' h' => by
      have ih := seq_det he h
      cases h' with
      | here _ _ _ _ _ _ h' => exact absurd (ih _ h') (by simp)
      | next _ _ _ _ _ h' _ => exact absurd (ih _ h') (by simp)
      | ranOut => rfl
theorem seq_det (he : ¬ IsNonTerminal ps eps) {xs : List T} {pos : Nat}
    {r : Search (List (Node L T) × Nat)} :
    Seq eps ps cand tokens xs pos r → ∀ r', Seq eps ps cand tokens xs pos r' → r = r'
  | .nil _ => fun r' h' => by cases h'; rfl
  | .eps _ _ _ h => fun r' h' => by
      have ih := seq_det he h
      cases h' with
      | eps _ _ _ h' => rw [ih _ h']
      | terminal _ _ _ _ _ h2 => exact absurd rfl h2
      | mismatch _ _ _ _ h2 => exact absurd rfl h2
      | nonTerminal _ _ _ _ _ h1 => exact absurd h1 he
      | ranOut _ _ _ h1 => exact absurd h1 he
  | .terminal _ _ _ _ h1 h2 h3 h => fun r' h' => by
      have ih := seq_det he h
      generalize hx : Token.tType _ :: _ = l at h'
      cases h' with
      | nil => simp at hx
      | eps _ _ _ h' => simp only [List.cons.injEq] at hx; exact absurd hx.1 h2
      | terminal _ _ _ _ _ _ h3' h' =>
        simp only [List.cons.injEq] at hx
        obtain ⟨_, rfl⟩ := hx
        rw [h3] at h3'
        simp only [Option.some.injEq] at h3'
        subst h3'
        rw [ih _ h']
      | mismatch _ _ _ _ _ h3' =>
        simp only [List.cons.injEq] at hx
        exact absurd hx.1 (h3' _ h3)
      | nonTerminal _ _ _ _ _ h1' =>
        simp only [List.cons.injEq] at hx
        rw [hx.1] at h1
        exact absurd h1' h1
      | ranOut _ _ _ h1' =>
        simp only [List.cons.injEq] at hx
        rw [hx.1] at h1
        exact absurd h1' h1
  | .mismatch _ _ _ h1 h2 h3 => fun r' h' => by
      cases h' with
      | eps => exact absurd rfl h2
      | terminal _ _ _ _ _ _ h3' => exact absurd rfl (h3 _ h3')
      | mismatch => rfl
      | nonTerminal _ _ _ _ _ h1' => exact absurd h1' h1
      | ranOut _ _ _ h1' => exact absurd h1' h1
  | .nonTerminal _ _ _ _ _ h1 h2 h => fun r' h' => by
      have ih := retry_det he h
      cases h' with
      | eps => exact absurd h1 he
      | terminal _ _ _ _ h1' => exact absurd h1 h1'
      | mismatch _ _ _ h1' => exact absurd h1 h1'
      | nonTerminal _ _ _ _ _ _ h2' h' =>
        rw [h2] at h2'
        simp only [Option.some.injEq] at h2'
        subst h2'
        exact ih _ h'
      | ranOut _ _ _ _ h2' => rw [h2] at h2'; simp at h2'
  | .ranOut _ _ _ h1 h2 => fun r' h' => by
      cases h' with
      | eps => exact absurd h1 he
      | terminal _ _ _ _ h1' => exact absurd h1 h1'
      | mismatch _ _ _ h1' => exact absurd h1 h1'
      | nonTerminal _ _ _ _ _ _ h2' h' => rw [h2] at h2'; simp at h2'
      | ranOut => rfl
theorem retry_det (he : ¬ IsNonTerminal ps eps) {x : T} {xs : List T} {pos : Nat}
    {outs : List (List T)} {r : Search (List (Node L T) × Nat)} :
    Retry eps ps cand tokens x xs pos outs r → ∀ r', Retry eps ps cand tokens x xs pos outs r' → r = r'
  | .failed _ _ _ _ h => fun r' h' => by
      have ih := choice_det' he h
      cases h' with
      | failed => rfl
      | ranOut _ _ _ _ h' => exact absurd (ih _ h') (by simp)
      | found _ _ _ _ _ _ _ _ _ h' => exact absurd (ih _ h') (by simp)
      | again _ _ _ _ _ _ _ _ h' => exact absurd (ih _ h') (by simp)
      | ranOutAfter _ _ _ _ _ _ _ h' => exact absurd (ih _ h') (by simp)
  | .ranOut _ _ _ _ h => fun r' h' => by
      have ih := choice_det' he h
      cases h' with
      | failed _ _ _ _ h' => exact absurd (ih _ h') (by simp)
      | ranOut => rfl
      | found _ _ _ _ _ _ _ _ _ h' => exact absurd (ih _ h') (by simp)
      | again _ _ _ _ _ _ _ _ h' => exact absurd (ih _ h') (by simp)
      | ranOutAfter => rfl
  | .found _ _ _ _ _ _ _ _ _ h hq => fun r' h' => by
      have ih := choice_det' he h
      have ih2 := seq_det he hq
      cases h' with
      | failed _ _ _ _ h' => exact absurd (ih _ h') (by simp)
      | ranOut _ _ _ _ h' => exact absurd (ih _ h') (by simp)
      | found _ _ _ _ _ _ _ _ _ h' hq' =>
        have := ih _ h'
        simp only [Search.found.injEq, Prod.mk.injEq] at this
        obtain ⟨rfl, rfl, rfl⟩ := this
        have := ih2 _ hq'
        simp only [Search.found.injEq, Prod.mk.injEq] at this
        obtain ⟨rfl, rfl⟩ := this
        rfl
      | again _ _ _ _ _ _ _ _ h' hq' =>
        have := ih _ h'
        simp only [Search.found.injEq, Prod.mk.injEq] at this
        obtain ⟨rfl, rfl, rfl⟩ := this
        exact absurd (ih2 _ hq') (by simp)
      | ranOutAfter _ _ _ _ _ _ _ h' hq' =>
        have := ih _ h'
        simp only [Search.found.injEq, Prod.mk.injEq] at this
        obtain ⟨rfl, rfl, rfl⟩ := this
        exact absurd (ih2 _ hq') (by simp)
  | .again _ _ _ _ _ _ _ _ h hq hr => fun r' h' => by
      have ih := choice_det' he h
      have ih2 := seq_det he hq
      have ih3 := retry_det he hr
      cases h' with
      | failed _ _ _ _ h' => exact absurd (ih _ h') (by simp)
      | ranOut _ _ _ _ h' => exact absurd (ih _ h') (by simp)
      | found _ _ _ _ _ _ _ _ _ h' hq' =>
        have := ih _ h'
        simp only [Search.found.injEq, Prod.mk.injEq] at this
        obtain ⟨rfl, rfl, rfl⟩ := this
        exact absurd (ih2 _ hq') (by simp)
      | again _ _ _ _ _ _ _ _ h' hq' hr' =>
        have := ih _ h'
        simp only [Search.found.injEq, Prod.mk.injEq] at this
        obtain ⟨rfl, rfl, rfl⟩ := this
        exact ih3 _ hr'
      | ranOutAfter _ _ _ _ _ _ _ h' hq' =>
        have := ih _ h'
        simp only [Search.found.injEq, Prod.mk.injEq] at this
        obtain ⟨rfl, rfl, rfl⟩ := this
        exact absurd (ih2 _ hq') (by simp)
  | .ranOutAfter _ _ _ _ _ _ _ h hq => fun r' h' => by
      have ih := choice_det' he h
      have ih2 := seq_det he hq
      cases h' with
      | failed _ _ _ _ h' => exact absurd (ih _ h') (by simp)
      | ranOut => rfl
      | found _ _ _ _ _ _ _ _ _ h' hq' =>
        have := ih _ h'
        simp only [Search.found.injEq, Prod.mk.injEq] at this
        obtain ⟨rfl, rfl, rfl⟩ := this
        exact absurd (ih2 _ hq') (by simp)
      | again _ _ _ _ _ _ _ _ h' hq' hr' =>
        have := ih _ h'
        simp only [Search.found.injEq, Prod.mk.injEq] at this
        obtain ⟨rfl, rfl, rfl⟩ := this
        exact absurd (ih2 _ hq') (by simp)
      | ranOutAfter => rfl
end

/-- The two candidate functions decide every ordered search in which no element is both skipped and
stopped at in the same way. -/
def SameRuns (l l' : List (List T)) : Prop :=
  ∀ (β : Type) (skip : List T → Prop) (stop : List T → Search β → Prop),
    (∀ o r, skip o → ¬ stop o r) → ∀ r, Runs skip stop l r → Runs skip stop l' r

theorem skipC_not_stopC (he : ¬ IsNonTerminal ps eps) {x : T} {xs : List T} {pos : Nat} (o : List T)
    (r : Search (List (Node L T) × Nat)) (h : SkipC eps ps cand tokens xs pos o) :
    ¬ StopC eps ps cand tokens x xs pos o r := by
  intro h'
  rcases h with h | ⟨ns, q, h, hq⟩
  · rcases h' with ⟨h', _⟩ | ⟨ns', q', h', _⟩
    · exact absurd (seq_det he h _ h') (by simp)
    · exact absurd (seq_det he h _ h') (by simp)
  · rcases h' with ⟨h', _⟩ | ⟨ns', q', h', h''⟩
    · exact absurd (seq_det he h _ h') (by simp)
    · have := seq_det he h _ h'
      simp only [Search.found.injEq, Prod.mk.injEq] at this
      obtain ⟨rfl, rfl⟩ := this
      rcases h'' with ⟨h'', _⟩ | ⟨ms, q', h'', _⟩
      · exact absurd (seq_det he hq _ h'') (by simp)
      · exact absurd (seq_det he hq _ h'') (by simp)

mutual
theorem choice_runs (he : ¬ IsNonTerminal ps eps) (hnt : ∀ x, IsNonTerminal ps x ↔ IsNonTerminal ps' x)
    (hc : ∀ x a, SameRuns (cand x a) (cand' x a)) {x : T} {pos : Nat} {outs : List (List T)}
    {r : Search (Node L T × Nat × List (List T))} :
    Choice eps ps cand tokens x pos outs r → ChoiceC eps ps' cand' tokens x pos outs r
  | .none _ _ => by simp [ChoiceC]
  | .here _ _ out _ ns _ h => by
      have ih := seq_runs he hnt hc h
      exact ⟨[], out, ns, rfl, by simp, ih, rfl⟩
  | .next _ _ _ _ _ h h' => choiceC_next (seq_runs he hnt hc h) (choice_runs he hnt hc h')
  | .ranOut _ _ out outs h => by
      have ih := seq_runs he hnt hc h
      exact ⟨[], out, outs, rfl, by simp, ih⟩
theorem seq_runs (he : ¬ IsNonTerminal ps eps) (hnt : ∀ x, IsNonTerminal ps x ↔ IsNonTerminal ps' x)
    (hc : ∀ x a, SameRuns (cand x a) (cand' x a)) {xs : List T} {pos : Nat}
    {r : Search (List (Node L T) × Nat)} :
    Seq eps ps cand tokens xs pos r → Seq eps ps' cand' tokens xs pos r
  | .nil _ => .nil _
  | .eps _ _ _ h => .eps _ _ _ (seq_runs he hnt hc h)
  | .terminal _ _ _ _ h1 h2 h3 h =>
      .terminal _ _ _ _ (fun h => h1 ((hnt _).2 h)) h2 h3 (seq_runs he hnt hc h)
  | .mismatch _ _ _ h1 h2 h3 => .mismatch _ _ _ (fun h => h1 ((hnt _).2 h)) h2 h3
  | .nonTerminal x xs pos t _ h1 h2 h => by
      have ih := retry_runs he hnt hc h
      have he' : ¬ IsNonTerminal ps' eps := fun h => he ((hnt _).2 h)
      exact .nonTerminal _ _ _ _ _ ((hnt _).1 h1) h2 (retry_of_runs
        (hc _ _ _ _ _ (fun o r => skipC_not_stopC he' o r) _ ih))
  | .ranOut _ _ _ h1 h2 => .ranOut _ _ _ ((hnt _).1 h1) h2
theorem retry_runs (he : ¬ IsNonTerminal ps eps) (hnt : ∀ x, IsNonTerminal ps x ↔ IsNonTerminal ps' x)
    (hc : ∀ x a, SameRuns (cand x a) (cand' x a)) {x : T} {xs : List T} {pos : Nat}
    {outs : List (List T)} {r : Search (List (Node L T) × Nat)} :
    Retry eps ps cand tokens x xs pos outs r →
    Runs (SkipC eps ps' cand' tokens xs pos) (StopC eps ps' cand' tokens x xs pos) outs r
  | .failed _ _ _ outs h => by
      have ih := choice_runs he hnt hc h
      have := Runs.append_skip (skip := SkipC eps ps' cand' tokens xs pos)
        (stop := StopC eps ps' cand' tokens x xs pos) (u := outs) (v := [])
        (fun o ho => .inl (ih o ho)) .nil
      rwa [List.append_nil] at this
  | .ranOut _ _ _ _ h => by
      obtain ⟨u, o, v, rfl, h1, h2⟩ := choice_runs he hnt hc h
      exact .append_skip (fun o ho => .inl (h1 o ho)) (.stop (.inl ⟨h2, rfl⟩))
  | .found _ _ _ _ _ _ _ _ _ h hq => by
      obtain ⟨u, o, ns, rfl, h1, h2, rfl⟩ := choice_runs he hnt hc h
      have ih := seq_runs he hnt hc hq
      exact .append_skip (fun o ho => .inl (h1 o ho)) (.stop (.inr ⟨ns, _, h2, .inr ⟨_, _, ih, rfl⟩⟩))
  | .again _ _ _ _ _ _ _ _ h hq hr => by
      obtain ⟨u, o, ns, rfl, h1, h2, rfl⟩ := choice_runs he hnt hc h
      have ih := seq_runs he hnt hc hq
      have ih2 := retry_runs he hnt hc hr
      exact .append_skip (fun o ho => .inl (h1 o ho)) (.skip (.inr ⟨ns, _, h2, ih⟩) ih2)
  | .ranOutAfter _ _ _ _ _ _ _ h hq => by
      obtain ⟨u, o, ns, rfl, h1, h2, rfl⟩ := choice_runs he hnt hc h
      have ih := seq_runs he hnt hc hq
      exact .append_skip (fun o ho => .inl (h1 o ho)) (.stop (.inr ⟨ns, _, h2, .inl ⟨ih, rfl⟩⟩))
end

/-- What is found, without the candidates left. -/
def Search.noRest : Search (Node L T × Nat × List (List T)) → Search (Node L T × Nat)
  | .found (n, q, _) => .found (n, q)
  | .failed => .failed
  | .ranOut => .ranOut

/-- The choice of a non-terminal, up to the candidates left. -/
theorem choice_same (he : ¬ IsNonTerminal ps eps) (hnt : ∀ x, IsNonTerminal ps x ↔ IsNonTerminal ps' x)
    (hc : ∀ x a, SameRuns (cand x a) (cand' x a)) {x : T} {pos : Nat} {outs outs' : List (List T)}
    (ho : SameRuns outs outs') {r : Search (Node L T × Nat × List (List T))}
    (h : Choice eps ps cand tokens x pos outs r) :
    ∃ r', Choice eps ps' cand' tokens x pos outs' r' ∧ r'.noRest = r.noRest := by
  have he' : ¬ IsNonTerminal ps' eps := fun h => he ((hnt _).2 h)
  let skip : List T → Prop := fun o => Seq eps ps' cand' tokens o pos .failed
  let stop : List T → Search (Node L T × Nat) → Prop := fun o r =>
    (Seq eps ps' cand' tokens o pos .ranOut ∧ r = .ranOut) ∨
    ∃ ns q, Seq eps ps' cand' tokens o pos (.found (ns, q)) ∧ r = .found (.mk ns ⟨none, x⟩, q)
  have hr : Runs skip stop outs r.noRest := by
    have h' := choice_runs he hnt hc h
    match r, h' with
    | .failed, h' =>
      have := Runs.append_skip (skip := skip) (stop := stop) (u := outs) (v := []) h' .nil
      rwa [List.append_nil] at this
    | .ranOut, ⟨u, o1, v, h1, h2, h3⟩ =>
      rw [h1]
      exact .append_skip h2 (.stop (.inl ⟨h3, rfl⟩))
    | .found (n, q, rest), ⟨u, o1, ns, h1, h2, h3, h4⟩ =>
      rw [h1]
      exact .append_skip h2 (.stop (.inr ⟨ns, q, h3, by rw [h4]; rfl⟩))
  have hr' := ho _ skip stop (by
    intro o r h1 h2
    rcases h2 with ⟨h2, _⟩ | ⟨ns, q, h2, _⟩
    · exact absurd (seq_det he' h1 _ h2) (by simp)
    · exact absurd (seq_det he' h1 _ h2) (by simp)) _ hr
  generalize r.noRest = r0 at hr'
  clear hr ho h
  induction hr' with
  | nil => exact ⟨.failed, .none _ _, rfl⟩
  | stop h =>
    rcases h with ⟨h, rfl⟩ | ⟨ns, q, h, rfl⟩
    · exact ⟨_, .ranOut _ _ _ _ h, rfl⟩
    · exact ⟨_, .here _ _ _ _ _ _ h, rfl⟩
  | skip h _ ih =>
    obtain ⟨r', h1, h2⟩ := ih
    exact ⟨r', .next _ _ _ _ _ h h1, h2⟩

/-- A copy further back does not matter. -/
theorem sameRuns_insert (u v : List (List T)) (o : List T) (ho : o ∈ u) :
    SameRuns (u ++ v) (u ++ o :: v) := fun _ _ _ _ _ h => h.insert ho

theorem sameRuns_remove (u v : List (List T)) (o : List T) (ho : o ∈ u) :
    SameRuns (u ++ o :: v) (u ++ v) := fun _ _ _ hd _ h => h.remove ho (hd o)

theorem SameRuns.refl (l : List (List T)) : SameRuns l l := fun _ _ _ _ _ h => h

end Verif.Spec
