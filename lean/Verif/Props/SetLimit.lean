import Verif.Props.Wrap
import Verif.Props.Predictive
import Verif.Props.Choice
import Verif.Props.TableAny

/-!
# Property C87: what no FIRST and FOLLOW sets can repair
-/

set_option linter.unusedSectionVars false

namespace Verif.Props

open Verif.Spec Verif.Examples

variable {σ L T : Type} [DecidableEq T]

/-- **C87.** In a table made from any FIRST and FOLLOW sets, productions that begin with the same symbol (other
than `eps`) are selected by the same terminals, whatever their input symbols and the rest of their outputs. -/
theorem C87_same_lead_same_cells (h : HashOrder T) (eps init : T) (ps : List (Production T))
    (g : Grammar T) (hg : Grammar.new h eps init ps = .ok g) (ff : FirstFollow T) (p : Parser σ L T)
    (hp : Parser.fromGrammarAndFirstFollowSymbols h g ff = .ok p) (q q' : Production T) (hq : q ∈ ps)
    (hq' : q' ∈ ps) (x : T) (hx : x ≠ eps) (ho : q.output.head? = some x) (ho' : q'.output.head? = some x)
    (a : T) :
    (∃ l, p.transitions.getProductions q.input a = some l ∧ q ∈ l) ↔
      ∃ l, p.transitions.getProductions q'.input a = some l ∧ q' ∈ l := by
  obtain ⟨h1, h2⟩ := (C44_table_any_sets h eps init ps g hg ff).2.2 _ (Parser.from_eq_ok hp).2.2
  have key : ∀ q ∈ ps, ∀ q' ∈ ps, q.output.head? = some x → q'.output.head? = some x →
      (∃ l, p.transitions.getProductions q.input a = some l ∧ q ∈ l) →
      ∃ l, p.transitions.getProductions q'.input a = some l ∧ q' ∈ l := by
    rintro q hq q' hq' ho ho' ⟨l, hl, hm⟩
    have ht := ((h1 q.input a).1 (by rw [hl]; rfl)).2
    obtain ⟨l', hl'⟩ := Option.isSome_iff_exists.1 ((h1 q'.input a).2 ⟨⟨q', hq', rfl⟩, ht⟩)
    refine ⟨l', hl', ((h2 _ _ _ hl').1 q').2 ⟨hq', rfl, ?_⟩⟩
    obtain ⟨y, r, fx, hy, hfx, hc⟩ := (((h2 _ _ _ hl).1 q).1 hm).2.2
    rw [hy] at ho
    simp only [List.head?_cons, Option.some.injEq] at ho
    subst ho
    obtain ⟨r', hr'⟩ : ∃ r', q'.output = y :: r' := by
      cases hc : q'.output with
      | nil => rw [hc] at ho'; simp at ho'
      | cons z r' => rw [hc] at ho'; simp only [List.head?_cons, Option.some.injEq] at ho'; exact ⟨r', by rw [ho']⟩
    refine ⟨y, r', fx, hr', hfx, ?_⟩
    rw [if_neg hx] at hc ⊢
    exact hc
  exact ⟨key q hq q' hq' ho ho', key q' hq' q hq ho' ho⟩

/-- `S → R d $ | n N $`, `R → Q`, `Q → A | y`, `N → A y`, `A → a | ε`, with
`S = 1, R = 2, Q = 3, A = 4, N = 5` and `d = 10, y = 11, n = 12, a = 13, $ = 14`. -/
def noSetsPs : List (Production Nat) :=
  [⟨1, [2, 10, 14]⟩, ⟨1, [12, 5, 14]⟩, ⟨2, [3]⟩, ⟨3, [4]⟩, ⟨3, [11]⟩, ⟨5, [4, 11]⟩, ⟨4, [13]⟩, ⟨4, [0]⟩]

/-- Textbook sets for `noSetsPs`. -/
def noSetsSets : FirstFollow Nat :=
  ⟨[(1, [11, 12, 13, 10]), (2, [13, 11, 0]), (3, [13, 11, 0]), (4, [13, 0]), (5, [13, 11]),
    (10, [10]), (11, [11]), (12, [12]), (13, [13]), (14, [14]), (0, [0])],
   [(1, []), (2, [10]), (3, [10]), (4, [10, 11]), (5, [14])]⟩

/-- The grammar is LL(1), not left-recursive, end-marked and without two equal symbols in a row, and
`n y $` and `y d $` are sentences. -/
theorem noSetsPs_ll1 : WellFormed 0 noSetsPs ∧ TextbookLL1 0 1 noSetsPs ∧ NotLeftRecursive 0 noSetsPs ∧
    EndMarked 0 1 14 noSetsPs ∧ NoAdjacentRepeat noSetsPs ∧ Sentence 0 1 noSetsPs [12, 11, 14] ∧
    Sentence 0 1 noSetsPs [11, 10, 14] := by
  have hw : WellFormed 0 noSetsPs := by unfold WellFormed; decide
  refine ⟨hw, ?_, ?_, ?_, noAdjacentRepeat_of_check (by decide), ⟨?_, ?_⟩, ?_, ?_⟩
  · exact (ll1FromAll_of_check (ff := noSetsSets) hw (obeysRules_of_check (by decide)) (by decide)).textbook
      (by unfold IsNonTerminal; decide)
  · exact notLeftRecursive_of_rank (fun x => x == 2 || x == 3 || x == 4)
      (fun x => if x = 1 then 4 else if x = 2 then 3 else if x = 3 then 2 else if x = 5 then 2 else
        if x = 4 then 1 else 0) (by decide)
  · refine ⟨by decide, by unfold IsNonTerminal; decide, by decide, ?_, by decide⟩
    intro p hp hi
    refine ⟨p.output.dropLast, ?_, ?_⟩ <;> revert p <;> decide
  · refine .step (Step.mk [] [] ⟨1, [12, 5, 14]⟩ (by decide)) ?_
    refine .step (Step.mk [12] [14] ⟨5, [4, 11]⟩ (by decide)) ?_
    exact .step (Step.mk [12] [11, 14] ⟨4, [0]⟩ (by decide)) (.refl _)
  · unfold IsTerminal IsNonTerminal
    decide
  · refine .step (Step.mk [] [] ⟨1, [2, 10, 14]⟩ (by decide)) ?_
    refine .step (Step.mk [] [10, 14] ⟨2, [3]⟩ (by decide)) ?_
    exact .step (Step.mk [] [10, 14] ⟨3, [11]⟩ (by decide)) (.refl _)
  · unfold IsTerminal IsNonTerminal
    decide

/-- The candidates are outputs of productions of the grammar, in order. -/
theorem candidates_sub {h : HashOrder T} {eps init : T} {ps : List (Production T)} {g : Grammar T}
    (hg : Grammar.new h eps init ps = .ok g) {ff : FirstFollow T} {p : Parser σ L T}
    (hp : Parser.fromGrammarAndFirstFollowSymbols h g ff = .ok p) (A a : T) :
    (candidates p.transitions A a).Sublist ((ps.filter (fun q => q.input = A)).map (·.output)) := by
  obtain ⟨_, h2⟩ := (C44_table_any_sets h eps init ps g hg ff).2.2 _ (Parser.from_eq_ok hp).2.2
  unfold candidates
  refine List.Sublist.map _ ?_
  cases hl : p.transitions.getProductions A a with
  | none => simp
  | some l =>
    rw [Option.getD_some, (h2 _ _ _ hl).2]
    exact List.filter_sublist

theorem _root_.Verif.Spec.Predicted.inv {eps : T} {ps : List (Production T)} {cand : T → T → List (List T)}
    {tokens : List (Token L T)} {x : T} {i j : Nat} {n : Node L T}
    (h : Predicted eps ps cand tokens x i n j) :
    (¬ IsNonTerminal ps x ∧ ∃ t, x = t.tType ∧ tokens[i]? = some t ∧ j = i + 1) ∨ (x = eps ∧ j = i) ∨
      (IsNonTerminal ps x ∧ ∃ t out ns, tokens[i]? = some t ∧ out ∈ cand x t.tType ∧
        PredictedSeq eps ps cand tokens out i ns j) := by
  cases h with
  | leaf t _ h1 h2 h3 => exact .inl ⟨h1, t, rfl, h3, rfl⟩
  | eps => exact .inr (.inl ⟨rfl, rfl⟩)
  | node _ _ t out ns _ h1 h2 h3 h4 => exact .inr (.inr ⟨h1, t, out, ns, h2, h3, h4⟩)

theorem _root_.Verif.Spec.PredictedSeq.inv {eps : T} {ps : List (Production T)} {cand : T → T → List (List T)}
    {tokens : List (Token L T)} {x : T} {xs : List T} {i k : Nat} {ns : List (Node L T)}
    (h : PredictedSeq eps ps cand tokens (x :: xs) i ns k) :
    ∃ j n ns', Predicted eps ps cand tokens x i n j ∧ PredictedSeq eps ps cand tokens xs j ns' k := by
  cases h with
  | cons _ _ _ j _ n ns h1 h2 => exact ⟨j, n, ns, h1, h2⟩

/-- What the table must contain for `n y $` to be accepted. -/
theorem noSets_needs {cand : Nat → Nat → List (List Nat)}
    (hsub : ∀ A a, (cand A a).Sublist ((noSetsPs.filter (fun q => q.input = A)).map (·.output)))
    {tokens : List (Token L Nat)} (ht : tokens.map (·.tType) = [12, 11, 14]) {n : Node L Nat} {k : Nat}
    (hk : Predicted 0 noSetsPs cand tokens 1 0 n k) : [4, 11] ∈ cand 5 11 ∧ [0] ∈ cand 4 11 := by
  have nt : ∀ x ∈ [1, 4, 5], IsNonTerminal noSetsPs x := by unfold IsNonTerminal; decide
  have te : ∀ x ∈ [10, 11, 12, 13, 14], ¬ IsNonTerminal noSetsPs x := by unfold IsNonTerminal; decide
  have htok : ∀ (i : Nat) (t : Token L Nat), tokens[i]? = some t → [12, 11, 14][i]? = some t.tType := by
    intro i t h
    rw [← ht, List.getElem?_map, h]
    rfl
  -- terminals are tokens
  have hterm : ∀ x i n j, x ∈ [10, 11, 12, 13, 14] → Predicted 0 noSetsPs cand tokens x i n j →
      [12, 11, 14][i]? = some x ∧ j = i + 1 := by
    intro x i n j hx h
    rcases h.inv with ⟨-, t, rfl, h1, h2⟩ | ⟨rfl, -⟩ | ⟨hn, -⟩
    · exact ⟨htok i t h1, h2⟩
    · simp at hx
    · exact absurd hn (te x hx)
  have hnone : ∀ i : Nat, ([12, 11, 14] : List Nat)[i]? ≠ some 10 ∧ ([12, 11, 14] : List Nat)[i]? ≠ some 13 := by
    intro i
    match i with
    | 0 => simp
    | 1 => simp
    | 2 => simp
    | _ + 3 => simp
  -- non-terminals are expanded
  have hnon : ∀ x i n j, x ∈ [1, 4, 5] → Predicted 0 noSetsPs cand tokens x i n j → ∃ a out ns,
      [12, 11, 14][i]? = some a ∧ out ∈ cand x a ∧ PredictedSeq 0 noSetsPs cand tokens out i ns j := by
    intro x i n j hx h
    rcases h.inv with ⟨hn, -⟩ | ⟨rfl, -⟩ | ⟨-, t, out, ns, h1, h2, h3⟩
    · exact absurd (nt x hx) hn
    · simp at hx
    · exact ⟨_, out, ns, htok i t h1, h2, h3⟩
  obtain ⟨a, out, ns, -, ho, hs⟩ := hnon 1 0 _ _ (by simp) hk
  have hout := (hsub 1 a).subset ho
  simp only [noSetsPs, List.filter_cons, List.filter_nil, decide_true, decide_false, if_true, if_false,
    List.map_cons, List.map_nil, List.mem_cons, List.not_mem_nil, or_false, Nat.reduceEqDiff,
    Bool.false_eq_true] at hout
  rcases hout with rfl | rfl
  · obtain ⟨j, n, ns', -, h2⟩ := hs.inv
    obtain ⟨j', n', ns', h2, -⟩ := h2.inv
    exact absurd (hterm 10 _ _ _ (by simp) h2).1 (hnone _).1
  obtain ⟨j, n, ns', h1, h2⟩ := hs.inv
  obtain ⟨-, rfl⟩ := hterm 12 _ _ _ (by simp) h1
  obtain ⟨j', n', ns', h2, -⟩ := h2.inv
  obtain ⟨b, out, ns, hb, ho, hs⟩ := hnon 5 _ _ _ (by simp) h2
  simp only [Nat.zero_add, List.getElem?_cons_succ, List.getElem?_cons_zero, Option.some.injEq] at hb
  subst hb
  have hout := (hsub 5 11).subset ho
  simp only [noSetsPs, List.filter_cons, List.filter_nil, decide_true, decide_false, if_true, if_false,
    List.map_cons, List.map_nil, List.mem_cons, List.not_mem_nil, or_false, Nat.reduceEqDiff,
    Bool.false_eq_true] at hout
  subst hout
  refine ⟨ho, ?_⟩
  obtain ⟨j', n', ns', h2, -⟩ := hs.inv
  obtain ⟨b, out, ns, hb, ho, hs⟩ := hnon 4 _ _ _ (by simp) h2
  simp only [Nat.zero_add, List.getElem?_cons_succ, List.getElem?_cons_zero, Option.some.injEq] at hb
  subst hb
  have hout := (hsub 4 11).subset ho
  simp only [noSetsPs, List.filter_cons, List.filter_nil, decide_true, decide_false, if_true, if_false,
    List.map_cons, List.map_nil, List.mem_cons, List.not_mem_nil, or_false, Nat.reduceEqDiff,
    Bool.false_eq_true] at hout
  rcases hout with rfl | rfl
  · obtain ⟨j, n, ns', h1, -⟩ := hs.inv
    exact absurd (hterm 13 _ _ _ (by simp) h1).1 (hnone _).2
  · exact ho

/-- What a table with these entries does on `y d $`. -/
theorem noSets_fails {cand : Nat → Nat → List (List Nat)}
    (hsub : ∀ A a, (cand A a).Sublist ((noSetsPs.filter (fun q => q.input = A)).map (·.output)))
    (h3 : [4] ∈ cand 3 11) (h4 : [0] ∈ cand 4 11) {u1 u2 u3 : Token L Nat} (hu1 : u1.tType = 11) :
    Choice 0 noSetsPs cand [u1, u2, u3] 1 0 (cand 1 11) .failed := by
  have s1 := hsub 1 11
  have s2 := hsub 2 11
  have s3 := hsub 3 11
  have s4 := hsub 4 11
  simp only [noSetsPs, List.filter_cons, List.filter_nil, decide_true, decide_false, if_true, if_false,
    List.map_cons, List.map_nil, Nat.reduceEqDiff, Bool.false_eq_true] at s1 s2 s3 s4
  have nt : ∀ x ∈ [1, 2, 3, 4, 5], IsNonTerminal noSetsPs x := by unfold IsNonTerminal; decide
  have te : ∀ x ∈ [10, 11, 12, 13, 14], ¬ IsNonTerminal noSetsPs x := by unfold IsNonTerminal; decide
  have hmis : ∀ x xs, x ∈ [10, 12, 13, 14] → Seq 0 noSetsPs cand [u1, u2, u3] (x :: xs) 0 .failed := by
    intro x xs hx
    refine .mismatch x xs 0 (te x ?_) ?_ ?_
    · revert x; decide
    · rintro rfl; simp at hx
    · intro t ht he
      simp only [List.getElem?_cons_zero, Option.some.injEq] at ht
      subst ht
      rw [hu1] at he
      subst he
      simp at hx
  -- `A` is derived as the empty string
  have c4 : ∃ n, Choice 0 noSetsPs cand [u1, u2, u3] 4 0 (cand 4 11) (.found (n, 0, [])) := by
    have hz : Choice 0 noSetsPs cand [u1, u2, u3] 4 0 [[0]] (.found (.mk [.mk [] ⟨none, 0⟩] ⟨none, 4⟩, 0, [])) :=
      .here 4 0 [0] [] _ 0 (.eps [] 0 (.found ([], 0)) (.nil 0))
    match hc : cand 4 11, s4, h4 with
    | [], _, h4 => simp at h4
    | [x], s4, h4 =>
      rw [List.mem_singleton] at h4
      subst h4
      exact ⟨_, hz⟩
    | [x, y], s4, _ =>
      have := s4.eq_of_length rfl
      simp only [List.cons.injEq, and_true] at this
      obtain ⟨rfl, rfl⟩ := this
      exact ⟨_, .next 4 0 [13] [[0]] _ (hmis 13 [] (by simp)) hz⟩
    | _ :: _ :: _ :: _, s4, _ => have := s4.length_le; simp at this
  obtain ⟨n4, c4⟩ := c4
  have r4 : Seq 0 noSetsPs cand [u1, u2, u3] [4] 0 (.found ([n4], 0)) :=
    .nonTerminal 4 [] 0 u1 _ (nt 4 (by simp)) rfl (by rw [hu1]; exact .found 4 [] 0 _ [] n4 0 0 [] c4 (.nil 0))
  -- so is `Q`
  have c3 : ∃ n rest, Choice 0 noSetsPs cand [u1, u2, u3] 3 0 (cand 3 11) (.found (n, 0, rest)) := by
    match hc : cand 3 11, s3, h3 with
    | [], _, h3 => simp at h3
    | [x], s3, h3 =>
      rw [List.mem_singleton] at h3
      subst h3
      exact ⟨_, _, .here 3 0 [4] [] _ 0 r4⟩
    | [x, y], s3, _ =>
      have := s3.eq_of_length rfl
      simp only [List.cons.injEq, and_true] at this
      obtain ⟨rfl, rfl⟩ := this
      exact ⟨_, _, .here 3 0 [4] _ _ 0 r4⟩
    | _ :: _ :: _ :: _, s3, _ => have := s3.length_le; simp at this
  obtain ⟨n3, rest3, c3⟩ := c3
  have r3 : Seq 0 noSetsPs cand [u1, u2, u3] [3] 0 (.found ([n3], 0)) :=
    .nonTerminal 3 [] 0 u1 _ (nt 3 (by simp)) rfl (by rw [hu1]; exact .found 3 [] 0 _ rest3 n3 0 0 [] c3 (.nil 0))
  -- `R d $` is not found
  have r2 : Seq 0 noSetsPs cand [u1, u2, u3] [2, 10, 14] 0 .failed := by
    refine .nonTerminal 2 [10, 14] 0 u1 _ (nt 2 (by simp)) rfl ?_
    rw [hu1]
    match hc : cand 2 11, s2 with
    | [], _ => exact .failed 2 _ 0 _ (.none 2 0)
    | [x], s2 =>
      have := s2.eq_of_length rfl
      simp only [List.cons.injEq, and_true] at this
      subst this
      exact .again 2 _ 0 _ [] _ 0 _ (.here 2 0 [3] [] _ 0 r3) (hmis 10 [14] (by simp)) (.failed 2 _ 0 _ (.none 2 0))
    | _ :: _ :: _, s2 => have := s2.length_le; simp at this
  have hall : ∀ l : List (List Nat), (∀ x ∈ l, x = [2, 10, 14] ∨ x = [12, 5, 14]) →
      Choice 0 noSetsPs cand [u1, u2, u3] 1 0 l .failed := by
    intro l hl
    induction l with
    | nil => exact .none 1 0
    | cons x l ih =>
      refine .next 1 0 x l _ ?_ (ih fun y hy => hl y (by simp [hy]))
      rcases hl x (by simp) with rfl | rfl
      · exact r2
      · exact hmis 12 [5, 14] (by simp)
  refine hall _ fun x hx => ?_
  simpa using s1.subset hx

/-- **C87**, consequence: for the LL(1) grammar `noSetsPs` no FIRST and FOLLOW sets, however they are
obtained, make a parser that accepts both of the sentences `n y $` and `y d $`. -/
theorem C87_no_sets_suffice (h : HashOrder Nat) (g : Grammar Nat) (hg : Grammar.new h 0 1 noSetsPs = .ok g)
    (ff : FirstFollow Nat) (p : Parser σ L Nat)
    (hp : Parser.fromGrammarAndFirstFollowSymbols h g ff = .ok p)
    (t1 t2 t3 u1 u2 u3 : Token L Nat) (ht : [t1, t2, t3].map (·.tType) = [12, 11, 14])
    (hu : [u1, u2, u3].map (·.tType) = [11, 10, 14]) (s : σ)
    (hr : ∃ tree s', Parses p [t1, t2, t3] s (.ok tree) s') :
    ∃ f s', Parses p [u1, u2, u3] s (.err f) s' := by
  simp only [List.map_cons, List.map_nil, List.cons.injEq, and_true] at ht hu
  obtain ⟨ht1, ht2, ht3⟩ := ht
  obtain ⟨hu1, hu2, hu3⟩ := hu
  obtain ⟨tree, s', hr⟩ := hr
  obtain ⟨k, hk⟩ := C70_ok_predicted h 0 1 noSetsPs g hg p (.inr ⟨ff, hp⟩) _ _ _ _ hr
  have hsub := candidates_sub hg hp
  obtain ⟨h5, h4⟩ := noSets_needs hsub (by simp [ht1, ht2, ht3]) hk
  have hmem : ∀ q ∈ noSetsPs, q.output ∈ candidates p.transitions q.input 11 →
      (∀ q' ∈ noSetsPs, q'.input = q.input → q'.output = q.output → q' = q) →
      ∃ l, p.transitions.getProductions q.input 11 = some l ∧ q ∈ l := by
    intro q hq hc huniq
    unfold candidates at hc
    rw [List.mem_map] at hc
    obtain ⟨q', hq', he⟩ := hc
    cases hl : p.transitions.getProductions q.input 11 with
    | none => rw [hl] at hq'; simp at hq'
    | some l =>
      rw [hl, Option.getD_some] at hq'
      obtain ⟨_, h2⟩ := (C44_table_any_sets h 0 1 _ g hg ff).2.2 _ (Parser.from_eq_ok hp).2.2
      obtain ⟨h6, h7, -⟩ := ((h2 _ _ _ hl).1 q').1 hq'
      rw [huniq q' h6 h7 he] at hq'
      exact ⟨l, rfl, hq'⟩
  obtain ⟨l, hl, hq⟩ := (C87_same_lead_same_cells h 0 1 _ g hg ff p hp ⟨5, [4, 11]⟩ ⟨3, [4]⟩ (by decide) (by decide)
    4 (by decide) rfl rfl 11).1 (hmem ⟨5, [4, 11]⟩ (by decide) h5 (by decide))
  have h3 : [4] ∈ candidates p.transitions 3 11 := by
    unfold candidates
    rw [hl, List.mem_map]
    exact ⟨_, hq, rfl⟩
  refine ((C24_ordered_choice_any_first_follow h 0 1 _ g hg ff p hp u1 [u2, u3] s).2.1).2 ?_
  rw [hu1]
  exact noSets_fails hsub h3 h4 hu1

/-- With the textbook sets the first sentence is accepted and the second rejected; without `y` in FOLLOW(`A`)
it is the other way round. The parser of the rewritten grammar (C86) accepts both. -/
theorem C87_either_sentence : ∃ g p p' t t' f f' g' p'' u u',
    Grammar.new (HashOrder.id Nat) 0 1 noSetsPs = .ok g ∧
    Parser.fromGrammarAndFirstFollowSymbols (HashOrder.id Nat) g noSetsSets = .ok (p : Parser Unit Unit Nat) ∧
    Parser.fromGrammarAndFirstFollowSymbols (HashOrder.id Nat) g
      ⟨noSetsSets.firstSymbols, [(1, []), (2, [10]), (3, [10]), (4, [10]), (5, [14])]⟩ =
        .ok (p' : Parser Unit Unit Nat) ∧
    Parses p [⟨none, 12⟩, ⟨none, 11⟩, ⟨none, 14⟩] () (.ok t) () ∧
    Parses p [⟨none, 11⟩, ⟨none, 10⟩, ⟨none, 14⟩] () (.err f) () ∧
    Parses p' [⟨none, 12⟩, ⟨none, 11⟩, ⟨none, 14⟩] () (.err f') () ∧
    Parses p' [⟨none, 11⟩, ⟨none, 10⟩, ⟨none, 14⟩] () (.ok t') () ∧
    Grammar.new (HashOrder.id _) (.old 0) .start (wrapped 0 1 noSetsPs) = .ok g' ∧
    Built (HashOrder.id _) g' none (p'' : Parser Unit Unit (Wrapped Nat)) ∧
    Parses p'' (wrapTokens [⟨none, 12⟩, ⟨none, 11⟩, ⟨none, 14⟩]) () (.ok u) () ∧
    Parses p'' (wrapTokens [⟨none, 11⟩, ⟨none, 10⟩, ⟨none, 14⟩]) () (.ok u') () :=
  ⟨_, _, _, _, _, _, _, _, _, _, _, rfl, rfl, rfl, Parser.parse_returns (n := 40) rfl,
    Parser.parse_returns (n := 40) rfl, Parser.parse_returns (n := 40) rfl, Parser.parse_returns (n := 40) rfl,
    rfl, Parser.built_of_eval (n := 30) rfl, Parser.parse_returns (n := 60) rfl,
    Parser.parse_returns (n := 60) rfl⟩

end Verif.Props
