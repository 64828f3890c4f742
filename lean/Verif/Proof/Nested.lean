import Verif.Spec.Nested
import Verif.Proof.Dup
import Mathlib.Data.Set.Finite.Lattice
import Mathlib.Logic.Relation
import Mathlib.Order.Preorder.Finite

/-! # A search has no outcome exactly if it leads to itself -/

set_option linter.unusedSectionVars false

namespace Verif.Spec

variable {L T : Type} {eps : T} {ps : List (Production T)} {cand : T → T → List (List T)}
  {tokens : List (Token L T)}

/-- Searches that lead only to searches with an outcome have an outcome. -/
theorem seq_of_tries (xs : List T) : ∀ pos,
    (∀ o q, Tries eps ps cand tokens xs pos o q → ∃ r, Seq eps ps cand tokens o q r) →
    ∃ r, Seq eps ps cand tokens xs pos r := by
  classical
  induction xs with
  | nil => exact fun pos _ => ⟨_, .nil pos⟩
  | cons x xs ih =>
    intro pos h
    by_cases hx : IsNonTerminal ps x
    · cases ht : tokens[pos]? with
      | none => exact ⟨_, .ranOut _ _ _ hx ht⟩
      | some t =>
        suffices key : ∀ v u, cand x t.tType = u ++ v →
            (∀ o ∈ u, PassedOver eps ps cand tokens xs pos o) →
            ∃ r, Runs (SkipC eps ps cand tokens xs pos) (StopC eps ps cand tokens x xs pos) v r by
          obtain ⟨r, hr⟩ := key _ [] rfl (by simp)
          exact ⟨r, .nonTerminal _ _ _ _ _ hx ht (retry_of_runs hr)⟩
        intro v
        induction v with
        | nil => exact fun _ _ _ => ⟨_, .nil⟩
        | cons o v ihv =>
          intro u hu hskip
          have next : PassedOver eps ps cand tokens xs pos o →
              ∃ r, Runs (SkipC eps ps cand tokens xs pos) (StopC eps ps cand tokens x xs pos) (o :: v) r := by
            intro ho
            obtain ⟨r, hr⟩ := ihv (u ++ [o]) (by simp [hu]) (by
              intro o' ho'
              rcases List.mem_append.1 ho' with h' | h'
              · exact hskip o' h'
              · rw [List.mem_singleton] at h'
                rw [h']
                exact ho)
            exact ⟨r, .skip ho hr⟩
          obtain ⟨r, hr⟩ := h o pos (.candidate _ _ _ t u o v hx ht hu hskip)
          match r, hr with
          | .failed, hr => exact next (.inl hr)
          | .ranOut, hr => exact ⟨_, .stop (.inl ⟨hr, rfl⟩)⟩
          | .found (ns, k), hr =>
            obtain ⟨r', hr'⟩ := ih k (fun o' q' h' =>
              h o' q' (.behind _ _ _ t u o v ns k _ _ hx ht hu hskip hr h'))
            match r', hr' with
            | .failed, hr' => exact next (.inr ⟨ns, k, hr, hr'⟩)
            | .ranOut, hr' => exact ⟨_, .stop (.inr ⟨ns, k, hr, .inl ⟨hr', rfl⟩⟩)⟩
            | .found (ms, q), hr' => exact ⟨_, .stop (.inr ⟨ns, k, hr, .inr ⟨ms, q, hr', rfl⟩⟩)⟩
    · by_cases he : x = eps
      · subst he
        obtain ⟨r, hr⟩ := ih pos (fun o q h' => h o q (.eps _ _ _ _ h'))
        exact ⟨_, .eps _ _ _ hr⟩
      · by_cases hm : ∃ t, tokens[pos]? = some t ∧ t.tType = x
        · obtain ⟨t, ht, rfl⟩ := hm
          obtain ⟨r, hr⟩ := ih (pos + 1) (fun o q h' => h o q (.terminal _ _ _ _ _ hx he ht h'))
          exact ⟨_, .terminal _ _ _ _ hx he ht hr⟩
        · exact ⟨_, .mismatch _ _ _ hx he (fun t ht e => hm ⟨t, ht, e⟩)⟩

/-- The searches, ordered by what they lead to. -/
def Below (eps : T) (ps : List (Production T)) (cand : T → T → List (List T)) (tokens : List (Token L T))
    (a b : List T × Nat) : Prop :=
  Tries eps ps cand tokens b.1 b.2 a.1 a.2

theorem runs_split {α β : Type} {skip : α → Prop} {stop : α → Search β → Prop}
    (hd : ∀ o r, skip o → ¬ stop o r) {u : List α} {o : α} {v : List α} {r : Search β}
    (h : Runs skip stop (u ++ o :: v) r) (hu : ∀ o ∈ u, skip o) : Runs skip stop (o :: v) r := by
  induction u with
  | nil => exact h
  | cons o' u ih =>
    cases h with
    | stop h => exact absurd h (hd _ _ (hu o' (by simp)))
    | skip _ h => exact ih h (fun o ho => hu o (by simp [ho]))

theorem split_cases {α : Type} {u v u1 rest : List α} {o o1 : α} (h : u1 ++ o1 :: rest = u ++ o :: v) :
    (u = u1 ∧ o = o1 ∧ v = rest) ∨ (∃ w, u1 = u ++ o :: w) ∨
      ∃ w, u = u1 ++ o1 :: w ∧ rest = w ++ o :: v := by
  induction u generalizing u1 with
  | nil =>
    cases u1 with
    | nil => simp only [List.nil_append, List.cons.injEq] at h; exact .inl ⟨rfl, h.1.symm, h.2.symm⟩
    | cons a u1 =>
      simp only [List.cons_append, List.nil_append, List.cons.injEq] at h
      exact .inr (.inl ⟨u1, by simp [h.1]⟩)
  | cons a u ih =>
    cases u1 with
    | nil =>
      simp only [List.nil_append, List.cons_append, List.cons.injEq] at h
      exact .inr (.inr ⟨u, by simp [h.1], h.2⟩)
    | cons b u1 =>
      simp only [List.cons_append, List.cons.injEq] at h
      obtain ⟨rfl, h⟩ := h
      rcases ih h with ⟨rfl, rfl, rfl⟩ | ⟨w, rfl⟩ | ⟨w, rfl, rfl⟩
      · exact .inl ⟨rfl, rfl, rfl⟩
      · exact .inr (.inl ⟨w, rfl⟩)
      · exact .inr (.inr ⟨w, rfl, rfl⟩)

theorem choiceC_of_choice {x : T} {pos : Nat} {outs : List (List T)}
    {r : Search (Node L T × Nat × List (List T))} (h : Choice eps ps cand tokens x pos outs r) :
    ChoiceC eps ps cand tokens x pos outs r := by
  induction outs with
  | nil => cases h; simp [ChoiceC]
  | cons o outs ih =>
    cases h with
    | here _ _ _ _ ns q h => exact ⟨[], o, ns, rfl, by simp, h, rfl⟩
    | next _ _ _ _ _ h hc => exact choiceC_next h (ih hc)
    | ranOut _ _ _ _ h => exact ⟨[], o, outs, rfl, by simp, h⟩

/-- The candidates up to the one at which the search of a non-terminal ends. -/
theorem before_stop (he : ¬ IsNonTerminal ps eps) {xs : List T} {pos : Nat} {u1 rest : List (List T)}
    {o1 : List T} {r1 : Search (List (Node L T) × Nat)} (h1 : Seq eps ps cand tokens o1 pos r1)
    (hr1 : r1 ≠ .failed) (hu1 : ∀ o ∈ u1, Seq eps ps cand tokens o pos .failed)
    {u v : List (List T)} {o : List T} (e : u1 ++ o1 :: rest = u ++ o :: v)
    (hu : ∀ o' ∈ u, PassedOver eps ps cand tokens xs pos o') :
    ((∀ o' ∈ u, Seq eps ps cand tokens o' pos .failed) ∧
      ∀ ns k, Seq eps ps cand tokens o pos (.found (ns, k)) → r1 = .found (ns, k)) ∨
    ((∃ ns k, r1 = .found (ns, k) ∧ Seq eps ps cand tokens xs k .failed) ∧
      ∃ w, rest = w ++ o :: v ∧ ∀ o' ∈ w, PassedOver eps ps cand tokens xs pos o') := by
  rcases split_cases e with ⟨rfl, rfl, rfl⟩ | ⟨w, rfl⟩ | ⟨w, rfl, rfl⟩
  · exact .inl ⟨hu1, fun ns k h => seq_det he h1 _ h⟩
  · refine .inl ⟨fun o' ho' => hu1 o' (by simp [ho']), fun ns k h => ?_⟩
    exact absurd (seq_det he (hu1 o (by simp)) _ h) (by simp)
  · refine .inr ⟨?_, w, rfl, fun o' ho' => hu o' (by simp [ho'])⟩
    rcases hu o1 (by simp) with h | ⟨ns, k, h, h'⟩
    · exact absurd (seq_det he h1 _ h) hr1
    · exact ⟨ns, k, seq_det he h1 _ h, h'⟩

mutual
/-- Searches with an outcome do not lead to themselves. -/
theorem choice_acc (he : ¬ IsNonTerminal ps eps) {x : T} {pos : Nat} {outs : List (List T)}
    {r : Search (Node L T × Nat × List (List T))} :
    Choice eps ps cand tokens x pos outs r → ∀ u o v, outs = u ++ o :: v →
    (∀ o' ∈ u, Seq eps ps cand tokens o' pos .failed) → Acc (Below eps ps cand tokens) (o, pos)
  | .none _ _ => fun u o v e => by simp at e
  | .here _ _ out outs ns q h => fun u o v e hu => by
      have ih := seq_acc he h
      cases u with
      | nil => simp only [List.nil_append, List.cons.injEq] at e; rw [← e.1]; exact ih
      | cons o' u =>
        simp only [List.cons_append, List.cons.injEq] at e
        have := hu o' (by simp)
        rw [← e.1] at this
        exact absurd (seq_det he h _ this) (by simp)
  | .next _ _ out outs r h hc => fun u o v e hu => by
      have ih := seq_acc he h
      have ih2 := choice_acc he hc
      cases u with
      | nil => simp only [List.nil_append, List.cons.injEq] at e; rw [← e.1]; exact ih
      | cons o' u =>
        simp only [List.cons_append, List.cons.injEq] at e
        exact ih2 u o v e.2 (fun o ho => hu o (by simp [ho]))
  | .ranOut _ _ out outs h => fun u o v e hu => by
      have ih := seq_acc he h
      cases u with
      | nil => simp only [List.nil_append, List.cons.injEq] at e; rw [← e.1]; exact ih
      | cons o' u =>
        simp only [List.cons_append, List.cons.injEq] at e
        have := hu o' (by simp)
        rw [← e.1] at this
        exact absurd (seq_det he h _ this) (by simp)
theorem seq_acc (he : ¬ IsNonTerminal ps eps) {xs : List T} {pos : Nat}
    {r : Search (List (Node L T) × Nat)} :
    Seq eps ps cand tokens xs pos r → Acc (Below eps ps cand tokens) (xs, pos)
  | .nil _ => ⟨_, fun _ h => by simp only [Below] at h; cases h⟩
  | .eps xs pos r h => by
      have ih := seq_acc he h
      refine ⟨_, fun y h' => ?_⟩
      simp only [Below] at h'
      cases h' with
      | eps _ _ _ _ h' => exact ih.inv h'
      | terminal _ _ _ _ _ _ h2 => exact absurd rfl h2
      | candidate _ _ _ _ _ _ _ h1 => exact absurd h1 he
      | behind _ _ _ _ _ _ _ _ _ _ _ h1 => exact absurd h1 he
  | .terminal xs pos t r h1 h2 h3 h => by
      have ih := seq_acc he h
      refine ⟨_, fun y h' => ?_⟩
      simp only [Below] at h'
      generalize hx : t.tType :: xs = l at h'
      cases h' with
      | eps _ _ _ _ h' => simp only [List.cons.injEq] at hx; exact absurd hx.1 h2
      | terminal _ _ _ _ _ _ _ _ h' =>
        simp only [List.cons.injEq] at hx
        obtain ⟨_, rfl⟩ := hx
        exact ih.inv h'
      | candidate _ _ _ _ _ _ _ h1' => simp only [List.cons.injEq] at hx; rw [hx.1] at h1; exact absurd h1' h1
      | behind _ _ _ _ _ _ _ _ _ _ _ h1' =>
        simp only [List.cons.injEq] at hx; rw [hx.1] at h1; exact absurd h1' h1
  | .mismatch x xs pos h1 h2 h3 => by
      refine ⟨_, fun y h' => ?_⟩
      simp only [Below] at h'
      cases h' with
      | eps => exact absurd rfl h2
      | terminal _ _ _ _ _ _ _ h3' => exact absurd rfl (h3 _ h3')
      | candidate _ _ _ _ _ _ _ h1' => exact absurd h1' h1
      | behind _ _ _ _ _ _ _ _ _ _ _ h1' => exact absurd h1' h1
  | .nonTerminal x xs pos t r h1 h2 h => by
      have ih := retry_acc he h
      refine ⟨_, fun y h' => ?_⟩
      simp only [Below] at h'
      generalize hq : y.2 = k at h'
      cases h' with
      | eps => exact absurd h1 he
      | terminal _ _ _ _ _ h1' => exact absurd h1 h1'
      | candidate _ _ _ t' u o v _ ht hc hu =>
        rw [h2] at ht
        simp only [Option.some.injEq] at ht
        subst ht
        obtain ⟨y1, y2⟩ := y
        subst hq
        exact (ih u _ v hc hu).1
      | behind _ _ _ t' u o v ns k o' q _ ht hc hu hs h' =>
        rw [h2] at ht
        simp only [Option.some.injEq] at ht
        subst ht
        obtain ⟨y1, y2⟩ := y
        subst hq
        exact ((ih u o v hc hu).2 ns k hs).inv h'
  | .ranOut x xs pos h1 h2 => by
      refine ⟨_, fun y h' => ?_⟩
      simp only [Below] at h'
      generalize hq : y.2 = k at h'
      cases h' with
      | eps => exact absurd h1 he
      | terminal _ _ _ _ _ h1' => exact absurd h1 h1'
      | candidate _ _ _ t' u o v _ ht => rw [h2] at ht; simp at ht
      | behind _ _ _ t' u o v ns k o' q _ ht => rw [h2] at ht; simp at ht
theorem retry_acc (he : ¬ IsNonTerminal ps eps) {x : T} {xs : List T} {pos : Nat}
    {outs : List (List T)} {r : Search (List (Node L T) × Nat)} :
    Retry eps ps cand tokens x xs pos outs r → ∀ u o v, outs = u ++ o :: v →
    (∀ o' ∈ u, PassedOver eps ps cand tokens xs pos o') → Acc (Below eps ps cand tokens) (o, pos) ∧
      ∀ ns k, Seq eps ps cand tokens o pos (.found (ns, k)) → Acc (Below eps ps cand tokens) (xs, k)
  | .failed _ _ _ _ h => fun u o v e hu => by
      have ih := choice_acc he h
      have hc := choiceC_of_choice h
      simp only [ChoiceC] at hc
      rw [e] at hc
      refine ⟨ih u o v e (fun o' ho' => hc o' (by simp [ho'])), fun ns k h' => ?_⟩
      exact absurd (seq_det he (hc o (by simp)) _ h') (by simp)
  | .ranOut _ _ _ _ h => fun u o v e hu => by
      have ih := choice_acc he h
      obtain ⟨u1, o1, v1, e1, h1, h2⟩ := choiceC_of_choice h
      rcases before_stop he h2 (by simp) h1 (e1.symm.trans e) hu with ⟨h3, h4⟩ | ⟨⟨ns, k, h3, _⟩, _⟩
      · exact ⟨ih u o v e h3, fun ns k h' => absurd (h4 ns k h') (by simp)⟩
      · simp at h3
  | .found _ _ _ _ rest n q q' ns h hq => fun u o v e hu => by
      have ih := choice_acc he h
      have ih2 := seq_acc he hq
      obtain ⟨u1, o1, ns1, e1, h1, h2, _⟩ := choiceC_of_choice h
      rcases before_stop he h2 (by simp) h1 (e1.symm.trans e) hu with ⟨h3, h4⟩ | ⟨⟨ns', k, h3, h5⟩, _⟩
      · refine ⟨ih u o v e h3, fun ns' k h' => ?_⟩
        have := h4 ns' k h'
        simp only [Search.found.injEq, Prod.mk.injEq] at this
        rw [← this.2]
        exact ih2
      · simp only [Search.found.injEq, Prod.mk.injEq] at h3
        rw [← h3.2] at h5
        exact absurd (seq_det he hq _ h5) (by simp)
  | .again _ _ _ _ rest n q r h hq hr => fun u o v e hu => by
      have ih := choice_acc he h
      have ih2 := seq_acc he hq
      have ih3 := retry_acc he hr
      obtain ⟨u1, o1, ns1, e1, h1, h2, _⟩ := choiceC_of_choice h
      rcases before_stop he h2 (by simp) h1 (e1.symm.trans e) hu with ⟨h3, h4⟩ | ⟨_, w, h3, h4⟩
      · refine ⟨ih u o v e h3, fun ns' k h' => ?_⟩
        have := h4 ns' k h'
        simp only [Search.found.injEq, Prod.mk.injEq] at this
        rw [← this.2]
        exact ih2
      · exact ih3 w o v h3 h4
  | .ranOutAfter _ _ _ _ rest n q h hq => fun u o v e hu => by
      have ih := choice_acc he h
      have ih2 := seq_acc he hq
      obtain ⟨u1, o1, ns1, e1, h1, h2, _⟩ := choiceC_of_choice h
      rcases before_stop he h2 (by simp) h1 (e1.symm.trans e) hu with ⟨h3, h4⟩ | ⟨⟨ns', k, h3, h5⟩, _⟩
      · refine ⟨ih u o v e h3, fun ns' k h' => ?_⟩
        have := h4 ns' k h'
        simp only [Search.found.injEq, Prod.mk.injEq] at this
        rw [← this.2]
        exact ih2
      · simp only [Search.found.injEq, Prod.mk.injEq] at h3
        rw [← h3.2] at h5
        exact absurd (seq_det he hq _ h5) (by simp)
end

/-- A search has an outcome exactly if what it leads to comes to an end. -/
theorem seq_iff_acc (he : ¬ IsNonTerminal ps eps) {xs : List T} {pos : Nat} :
    (∃ r, Seq eps ps cand tokens xs pos r) ↔ Acc (Below eps ps cand tokens) (xs, pos) := by
  constructor
  · rintro ⟨r, h⟩
    exact seq_acc he h
  · intro h
    generalize hc : (xs, pos) = c at h
    induction h generalizing xs pos with
    | intro c _ ih =>
      subst hc
      exact seq_of_tries xs pos (fun o q h => ih (o, q) h rfl)

/-- The candidates tried are outputs of productions and the positions lie in the input. -/
theorem Tries.mem (hcand : ∀ x a o, o ∈ cand x a → (⟨x, o⟩ : Production T) ∈ ps) {xs o : List T} {pos q : Nat}
    (h : Tries eps ps cand tokens xs pos o q) : o ∈ ps.map (·.output) ∧ q < tokens.length := by
  induction h with
  | eps _ _ _ _ _ ih => exact ih
  | terminal _ _ _ _ _ _ _ _ _ ih => exact ih
  | candidate x _ _ t u o v _ ht hc _ =>
    refine ⟨List.mem_map.2 ⟨⟨x, o⟩, hcand x t.tType o (by rw [hc]; simp), rfl⟩, ?_⟩
    exact (List.getElem?_eq_some_iff.1 ht).1
  | behind _ _ _ _ _ _ _ _ _ _ _ _ _ _ _ _ _ ih => exact ih

theorem leadsTo_iff {xs o : List T} {pos q : Nat} : LeadsTo eps ps cand tokens xs pos o q ↔
    Relation.TransGen (fun a b => Below eps ps cand tokens b a) (xs, pos) (o, q) := by
  constructor
  · intro h
    induction h with
    | tries _ _ h => exact .single h
    | step _ _ _ _ _ h ih => exact ih.tail h
  · intro h
    generalize hc : (o, q) = c at h
    induction h generalizing o q with
    | single h => subst hc; exact .tries _ _ _ _ h
    | tail _ h ih => subst hc; exact .step _ _ _ _ _ _ (ih rfl) h

/-- A search has no outcome exactly if it leads to a search that leads to itself. -/
theorem no_seq_iff (hcand : ∀ x a o, o ∈ cand x a → (⟨x, o⟩ : Production T) ∈ ps)
    (he : ¬ IsNonTerminal ps eps) {xs : List T} {pos : Nat} :
    (¬ ∃ r, Seq eps ps cand tokens xs pos r) ↔
      ∃ o q, LeadsTo eps ps cand tokens xs pos o q ∧ LeadsTo eps ps cand tokens o q o q := by
  constructor
  · intro h
    have step : ∀ c : {c : List T × Nat // ¬ ∃ r, Seq eps ps cand tokens c.1 c.2 r},
        ∃ d : {c : List T × Nat // ¬ ∃ r, Seq eps ps cand tokens c.1 c.2 r},
          Tries eps ps cand tokens c.1.1 c.1.2 d.1.1 d.1.2 := by
      rintro ⟨⟨xs, pos⟩, h⟩
      by_contra hn
      refine h (seq_of_tries xs pos fun o q ht => ?_)
      by_contra hr
      exact hn ⟨⟨(o, q), hr⟩, ht⟩
    choose f hf using step
    let c : Nat → {c : List T × Nat // ¬ ∃ r, Seq eps ps cand tokens c.1 c.2 r} :=
      fun n => f^[n + 1] ⟨(xs, pos), h⟩
    have hc : ∀ n, c (n + 1) = f (c n) := fun n => Function.iterate_succ_apply' f (n + 1) _
    have hfin : Set.Finite {c : List T × Nat | c.1 ∈ ps.map (·.output) ∧ c.2 < tokens.length} :=
      (((ps.map (·.output)) ×ˢ (List.range tokens.length)).finite_toSet).subset (fun c hc => by
        obtain ⟨a, b⟩ := c
        exact List.mem_product.2 ⟨hc.1, List.mem_range.2 hc.2⟩)
    have hmem : ∀ n, (c n).1 ∈ {c : List T × Nat | c.1 ∈ ps.map (·.output) ∧ c.2 < tokens.length} := by
      intro n
      cases n with
      | zero => exact (hf ⟨(xs, pos), h⟩).mem hcand
      | succ n => rw [hc]; exact (hf (c n)).mem hcand
    obtain ⟨i, j, hij, e⟩ := Set.Finite.exists_lt_map_eq_of_forall_mem hmem hfin
    have hpath : ∀ a b, a < b → LeadsTo eps ps cand tokens (c a).1.1 (c a).1.2 (c b).1.1 (c b).1.2 := by
      intro a b hab
      induction b with
      | zero => omega
      | succ b ih =>
        have h1 := hf (c b)
        rw [← hc] at h1
        rcases Nat.lt_or_ge a b with h | h
        · exact .step _ _ _ _ _ _ (ih h) h1
        · have : a = b := by omega
          subst this
          exact .tries _ _ _ _ h1
    have hstart : ∀ b, LeadsTo eps ps cand tokens xs pos (c b).1.1 (c b).1.2 := by
      intro b
      induction b with
      | zero => exact .tries _ _ _ _ (hf ⟨(xs, pos), h⟩)
      | succ b ih => rw [hc]; exact .step _ _ _ _ _ _ ih (hf (c b))
    refine ⟨(c i).1.1, (c i).1.2, hstart i, ?_⟩
    have := hpath i j hij
    rwa [← e] at this
  · rintro ⟨o, q, h1, h2⟩ hr
    have hacc := (seq_iff_acc he).1 hr
    rw [leadsTo_iff] at h1 h2
    have hacc2 : Acc (Relation.TransGen (Below eps ps cand tokens)) (xs, pos) := hacc.transGen
    have h1' := Relation.transGen_swap.1 h1
    have h2' := Relation.transGen_swap.1 h2
    have hacc3 := hacc2.inv h1'
    have irr : ∀ a, Acc (Relation.TransGen (Below eps ps cand tokens)) a →
        ¬ Relation.TransGen (Below eps ps cand tokens) a a := by
      intro a ha
      induction ha with
      | intro a _ ih => exact fun h => ih a h h
    exact irr _ hacc3 h2'

end Verif.Spec
