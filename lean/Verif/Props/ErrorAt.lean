import Verif.Spec.ErrorAt
import Verif.Props.ReportAt
import Verif.Props.ReportChain
import Verif.Props.Expected
import Verif.Props.EndOfInput

/-!
# What a report says about the place of an error (C94)
-/

set_option linter.unusedSectionVars false

namespace Verif.Props

open Verif.Spec Verif.Examples

variable {σ L T : Type} [DecidableEq T]

/-- The tokens from `i` on in front of `j`. -/
def between (tokens : List (Token L T)) (i j : Nat) : List (Token L T) := (tokens.drop i).take (j - i)

theorem between_cons {tokens : List (Token L T)} {i j : Nat} {t : Token L T} (h : tokens[i]? = some t)
    (hij : i + 1 ≤ j) : between tokens i j = t :: between tokens (i + 1) j := by
  obtain ⟨hi, rfl⟩ := List.getElem?_eq_some_iff.1 h
  unfold between
  rw [List.drop_eq_getElem_cons hi, show j - i = (j - (i + 1)) + 1 by omega, List.take_succ_cons]

theorem between_append (tokens : List (Token L T)) {i j k : Nat} (h1 : i ≤ j) (h2 : j ≤ k) :
    between tokens i j ++ between tokens j k = between tokens i k := by
  unfold between
  rw [show tokens.drop j = (tokens.drop i).drop (j - i) by rw [List.drop_drop]; congr 1; omega,
    ← List.take_add]
  congr 1
  omega

variable {eps : T} {ps : List (Production T)} {cand : T → T → List (List T)} {tokens : List (Token L T)}

theorem predicted_within {x : T} {i j : Nat} {n : Node L T} (h : Predicted eps ps cand tokens x i n j) :
    i ≤ tokens.length → j ≤ tokens.length := by
  refine Predicted.rec (eps := eps) (ps := ps) (cand := cand) (tokens := tokens)
    (motive_1 := fun _ i _ j _ => i ≤ tokens.length → j ≤ tokens.length)
    (motive_2 := fun _ i _ j _ => i ≤ tokens.length → j ≤ tokens.length) ?_ ?_ ?_ ?_ ?_ h
  · intro t i _ _ ht _
    obtain ⟨hi, -⟩ := List.getElem?_eq_some_iff.1 ht
    omega
  · exact fun _ h => h
  · intro x i t out ns j _ _ _ _ ih h
    exact ih h
  · exact fun _ h => h
  · intro x xs i j k n ns _ _ ih1 ih2 h
    exact ih2 (ih1 h)

theorem before_within {xs : List T} {i j : Nat} {l : List (ProductionParsedSymbol L T)}
    (h : Before eps ps cand (none : Option (Solver σ L T)) tokens xs i l j) :
    i ≤ tokens.length → j ≤ tokens.length := by
  induction h with
  | nil i => exact id
  | eps xs i j l _ ih => exact ih
  | terminal xs i j t l _ _ ht _ ih =>
    obtain ⟨hi, -⟩ := List.getElem?_eq_some_iff.1 ht
    exact fun _ => ih (by omega)
  | derived x xs i k j n l _ hp _ ih => exact fun h => ih (predicted_within hp h)
  | fixed x xs i k j w fs l _ hx _ _ => exact (Parser.Recovery.not_fixAt_none hx).elim

theorem before_reported (hw : WellFormed eps ps)
    (hcand : ∀ x a o, o ∈ cand x a → (⟨x, o⟩ : Production T) ∈ ps) {xs : List T} {i j : Nat}
    {l : List (ProductionParsedSymbol L T)}
    (h : Before eps ps cand (none : Option (Solver σ L T)) tokens xs i l j) :
    i ≤ j ∧ (reportedTokens eps l).Sublist (between tokens i j) ∧
      ((∀ y ∈ xs, ¬ IsNonTerminal ps y) → reportedTokens eps l = between tokens i j) ∧
      ∀ st, Run eps ps (Parser.typesFrom tokens i) (xs ++ st) (Parser.typesFrom tokens j) st := by
  induction h with
  | nil i => exact ⟨Nat.le_refl _, by simp [reportedTokens], by simp [reportedTokens, between], fun st => .refl _ _⟩
  | eps xs i j l _ ih =>
    obtain ⟨h1, h2, h3, h4⟩ := ih
    have e : reportedTokens eps (.ok (.mk [] ⟨none, eps⟩) :: l) = reportedTokens (L := L) eps l := by
      simp [reportedTokens, leaves]
    rw [e]
    exact ⟨h1, h2, fun hx => h3 fun y hy => hx y (by simp [hy]), fun st => .skip _ _ _ _ (h4 st)⟩
  | terminal xs i j t l hn he ht _ ih =>
    obtain ⟨h1, h2, h3, h4⟩ := ih
    have e : reportedTokens eps (.ok (.mk [] t) :: l) = t :: reportedTokens eps l := by
      simp [reportedTokens, leaves, he]
    rw [e, between_cons ht h1, Parser.typesFrom_cons ht]
    exact ⟨by omega, h2.cons_cons t, fun hx => by rw [h3 fun y hy => hx y (by simp [hy])],
      fun st => .read _ _ _ _ _ hn he (h4 st)⟩
  | derived x xs i k j n l hx hp _ ih =>
    obtain ⟨h1, h2, h3, h4⟩ := ih
    have hik := (Parser.Recovery.predicted_le hw hcand hp).1
    refine ⟨by omega, ?_, fun hall => absurd hx (hall x (by simp)), fun st => ?_⟩
    · rw [← between_append tokens hik h1]
      exact h2.trans (List.sublist_append_right _ _)
    · have := Parser.Run.append (predicted_run hcand hp) (xs ++ st)
      exact (by simpa using this : Run eps ps _ (x :: xs ++ st) _ (xs ++ st)).trans (h4 st)
  | fixed x xs i k j w fs l _ hx _ _ => exact (Parser.Recovery.not_fixAt_none hx).elim

theorem failsAt_reported (hw : WellFormed eps ps)
    (hcand : ∀ x a o, o ∈ cand x a → (⟨x, o⟩ : Production T) ∈ ps) {f : FailedSymbol L T} {y : T}
    {ts : List (Token L T)} (hy : InnermostAfter eps f y ts) : ∀ {x : T} {i : Nat},
    i ≤ tokens.length → FailsAt eps ps cand (none : Option (Solver σ L T)) tokens x i f →
    ∃ k st, i ≤ k ∧ k ≤ tokens.length ∧ ts.Sublist (between tokens i k) ∧
      (OnlyLastNonTerminal ps → ts = between tokens i k) ∧ y ≠ eps ∧
      Stuck ps cand tokens y k ∧
      Run eps ps (Parser.typesFrom tokens i) [x] (Parser.typesFrom tokens k) (y :: st) := by
  induction hy with
  | here y =>
    intro x i hi h
    cases h with
    | terminal _ _ h1 h2 h3 =>
      exact ⟨i, [], Nat.le_refl _, hi, by simp, fun _ => by simp [between], h2, .inl ⟨h1, h3⟩, .refl _ _⟩
    | nonTerminal _ _ t _ h1 h2 h3 =>
      refine ⟨i, [], Nat.le_refl _, hi, by simp, fun _ => by simp [between], ?_, .inr ⟨h1, t, h2, ?_⟩, .refl _ _⟩
      · rintro rfl
        obtain ⟨q, hq, e⟩ := h1
        exact (hw q hq).1 e
      · generalize cand y t.tType = outs at h3
        cases h3
        rfl
  | deep fps x' fp y ts hfp _ ih =>
    intro x i hi h
    cases h with
    | terminal => simp at hfp
    | nonTerminal _ _ t _ h1 h2 h3 =>
      have key : ∀ {outs fps}, EachFailsAt eps ps cand (none : Option (Solver σ L T)) tokens i outs fps →
          fp ∈ fps → ∃ before z after j, before ++ z :: after ∈ outs ∧
            Before eps ps cand (none : Option (Solver σ L T)) tokens before i fp.parsedSymbols j ∧
            FailsAt eps ps cand (none : Option (Solver σ L T)) tokens z j fp.failedSymbol := by
        intro outs fps h
        induction fps generalizing outs with
        | nil => simp
        | cons g gs ihg =>
          intro hm
          cases h with
          | cons _ j before z after f parsed outs _ hb hf hrest =>
            rcases List.mem_cons.1 hm with rfl | hm
            · exact ⟨before, z, after, j, by simp, hb, hf⟩
            · obtain ⟨b, z', a, j', h1, h2, h3⟩ := ihg hrest hm
              exact ⟨b, z', a, j', by simp [h1], h2, h3⟩
      obtain ⟨before, z, after, j, ho, hb, hf⟩ := key h3 hfp
      obtain ⟨b1, b2, b3, b4⟩ := before_reported hw hcand hb
      have hq := hcand _ _ _ ho
      have hj := before_within hb hi
      obtain ⟨k, st, k1, k2, k3, k4, k5, k6, k7⟩ := ih hj hf
      refine ⟨k, st ++ after, by omega, k2, ?_, ?_, k5, k6, ?_⟩
      · rw [← between_append tokens b1 k1]
        exact b2.append k3
      · intro hol
        rw [← between_append tokens b1 k1, ← k4 hol, b3]
        intro w hw
        refine hol _ hq w ?_
        simp only [List.dropLast_append_cons, List.mem_append]
        exact .inl hw
      · refine Run.expand ⟨x', _⟩ _ _ _ _ hq (by rw [Parser.typesFrom_cons h2]; simp) ?_
        have h5 := Parser.Run.append k7 after
        simpa using (b4 (z :: after)).trans (by simpa using h5)

theorem allowed_of_run (hw : WellFormed eps ps) {init : T} (hinit : IsNonTerminal ps init) {k : Nat} {y : T}
    {st : List T} (hy : y ≠ eps)
    (h : Run eps ps (Parser.typesFrom tokens 0) [init] (Parser.typesFrom tokens k) (y :: st)) :
    Allowed eps init ps tokens y k := by
  have hie : init ≠ eps := by
    rintro rfl
    obtain ⟨q, hq, e⟩ := hinit
    exact (hw q hq).1 e
  obtain ⟨u, hu, hd⟩ := Parser.Run.derives hw h
  obtain ⟨⟨u', hu', ht⟩, -⟩ := Parser.Run.terminals h (by
    intro z hz hn
    simp only [List.mem_singleton] at hz
    subst hz
    exact absurd hinit hn)
  have hlen : ∀ v : List T, Parser.typesFrom tokens 0 = v ++ Parser.typesFrom tokens k →
      v = (tokens.take k).map (·.tType) := by
    intro v hv
    have e : Parser.typesFrom tokens 0 = (tokens.take k).map (·.tType) ++ Parser.typesFrom tokens k := by
      unfold Parser.typesFrom
      rw [← List.map_append, List.take_append_drop, List.drop_zero]
    exact List.append_cancel_right (hv.symm.trans e)
  rw [hlen u hu, Parser.strip_cons_ne hie, Parser.strip_cons_ne hy] at hd
  rw [hlen u' hu'] at ht
  refine ⟨fun t hm => ht _ (List.mem_map_of_mem hm), _, by simpa [Parser.strip] using hd⟩

/-- **C94**, what a report says: without a solver, let `ts` be the tokens that a report mentions as parsed on the
way down to one of its innermost symbols. They are some of the tokens in front of the position where this symbol
was expected, in order. If non-terminals are only the last symbols of productions, they are all of them, and so
their number is the position. -/
theorem C94_reported_tokens (h : HashOrder T) (eps init : T) (ps : List (Production T))
    (g : Grammar T) (hg : Grammar.new h eps init ps = .ok g) (hinit : IsNonTerminal ps init)
    (p : Parser σ L T) (hp : Built h g none p) (tokens : List (Token L T)) (s s' : σ)
    (f : FailedSymbol L T) (hr : Parses p tokens s (.err f) s') (y : T) (ts : List (Token L T))
    (hy : InnermostAfter eps f y ts) :
    ∃ k, k ≤ tokens.length ∧ Allowed eps init ps tokens y k ∧
      Stuck ps (candidates p.transitions) tokens y k ∧ ts.Sublist (tokens.take k) ∧
      (OnlyLastNonTerminal ps → ts = tokens.take k) := by
  have hwf := (Grammar.grammarOf_of_new hg).wf
  have hcand : ∀ x a out, out ∈ candidates p.transitions x a → (⟨x, out⟩ : Production T) ∈ ps := by
    intro x a out ho
    rw [← Parser.getTokenProductions_eq] at ho
    exact (Parser.tableParser_of_built hg hp).1.toParserOf.cand x a out ho
  have hf := C76_report_positions h eps init ps g hg hinit none p hp tokens s s' f hr
  obtain ⟨k, st, -, h2, h3, h4, h5, h6, h7⟩ := failsAt_reported hwf hcand hy (Nat.zero_le _) hf
  have e : between tokens 0 k = tokens.take k := by simp [between]
  rw [e] at h3 h4
  exact ⟨k, h2, allowed_of_run hwf hinit h5 h7, h6, h3, h4⟩

/-- **C94**, a lower bound: take an end-marked grammar whose table has no conflicts, without two equal adjacent
non-terminals, in which every non-terminal derives some word. Without a solver the tokens that a report mentions
as parsed are some of those in front of the first token with which the input stops to begin a sentence (or in
front of the end of the input). -/
theorem C94_error_not_before (h : HashOrder T) (eps init : T) (ps : List (Production T))
    (g : Grammar T) (hg : Grammar.new h eps init ps = .ok g) (hinit : IsNonTerminal ps init)
    (p : Parser σ L T) (hp : Built h g none p) (hcf : ConflictFree p.transitions)
    (hadj : NoAdjacentRepeat ps) (e : T) (hem : EndMarked eps init e ps)
    (hprod : ∀ x, IsNonTerminal ps x → Productive eps ps x)
    (tokens : List (Token L T)) (s s' : σ) (f : FailedSymbol L T) (hr : Parses p tokens s (.err f) s')
    (y : T) (ts : List (Token L T)) (hy : InnermostAfter eps f y ts) :
    ∃ k, k ≤ tokens.length ∧ ts.Sublist (tokens.take k) ∧
      BeginsSentence eps init ps ((tokens.take k).map (·.tType)) ∧
      (k < tokens.length → ¬ BeginsSentence eps init ps ((tokens.take (k + 1)).map (·.tType))) := by
  obtain ⟨k', h1, h2, -, h4, -⟩ := C94_reported_tokens h eps init ps g hg hinit p hp tokens s s' f hr y ts hy
  obtain ⟨_, k, -, k1, -, -, k4, k5⟩ := C66_expected_at_first_bad_token h eps init ps g hg hinit p hp hcf hadj e hem
    hprod tokens s s' f hr
  refine ⟨k, k1, ?_, k4, k5⟩
  have hb : BeginsSentence eps init ps ((tokens.take k').map (·.tType)) := by
    rw [← viable_iff_begins h eps init ps g hg hinit hprod]
    refine ⟨?_, y :: h2.2.choose, h2.2.choose_spec⟩
    intro a ha
    obtain ⟨u, hu, rfl⟩ := List.mem_map.1 ha
    exact h2.1 u hu
  have hle : k' ≤ k := by
    by_contra hlt
    refine k5 (by omega) ?_
    obtain ⟨z, hz⟩ := hb
    refine ⟨((tokens.take k').drop (k + 1)).map (·.tType) ++ z, ?_⟩
    rw [← List.append_assoc, ← List.map_append]
    have : tokens.take (k + 1) ++ (tokens.take k').drop (k + 1) = tokens.take k' := by
      conv_rhs => rw [← List.take_append_drop (k + 1) (tokens.take k')]
      rw [List.take_take, Nat.min_eq_left (by omega)]
    rw [this]
    exact hz
  exact h4.trans (List.take_prefix_take_left hle).sublist

/-- `S → A $`, `A → a A | b`, with `S = 1, A = 2, a = 10, b = 11, $ = 16`. -/
def hidePs : List (Production Nat) := [⟨1, [2, 16]⟩, ⟨2, [10, 2]⟩, ⟨2, [11]⟩]

/-- `n` symbols `a`, a `b` and a token that is not in the grammar. -/
def hideInput (n : Nat) : List (Token Unit Nat) := List.replicate n ⟨none, 10⟩ ++ [⟨none, 11⟩, ⟨none, 12⟩]

theorem hideInput_a {n i : Nat} (h : i < n) : (hideInput n)[i]? = some ⟨none, 10⟩ := by
  simp [hideInput, List.getElem?_append_left, h]

theorem hideInput_b (n : Nat) : (hideInput n)[n]? = some ⟨none, 11⟩ := by simp [hideInput]

theorem hideInput_x (n : Nat) : (hideInput n)[n + 1]? = some ⟨none, 12⟩ := by
  rw [hideInput, List.getElem?_append_right (by simp)]
  simp

theorem hide_choice {τ : Type} {cand : Nat → Nat → List (List Nat)} (ha : cand 2 10 = [[10, 2]])
    (hb : cand 2 11 = [[11]]) (solver : Option (Solver τ Unit Nat)) (n : Nat) : ∀ k i, i + k = n → ∀ s, ∃ t m,
      (hideInput n)[i]? = some t ∧
      Recovery.Choice 0 hidePs cand solver (hideInput n) 2 i (cand 2 t.tType) true s
        (.found (.node m (n + 1) []) s) := by
  have hA : IsNonTerminal hidePs 2 := ⟨⟨2, [11]⟩, by simp [hidePs], rfl⟩
  have hT : ∀ x, x ≠ 1 → x ≠ 2 → ¬ IsNonTerminal hidePs x := by
    rintro x h1 h2 ⟨q, hq, rfl⟩
    simp only [hidePs, List.mem_cons, List.not_mem_nil, or_false] at hq
    rcases hq with rfl | rfl | rfl
    · exact h1 rfl
    · exact h2 rfl
    · exact h2 rfl
  intro k
  induction k with
  | zero =>
    intro i hi s
    have : i = n := by omega
    subst this
    refine ⟨_, .mk [.mk [] ⟨none, 11⟩] ⟨none, 2⟩, hideInput_b i, ?_⟩
    show Recovery.Choice _ _ _ _ _ _ _ (cand 2 11) _ _ _
    rw [hb]
    exact .derived _ _ _ _ _ _ _ (.node 2 i _ [11] [] s s [.mk [] ⟨none, 11⟩] (i + 1)
      (.terminal _ [] i s ⟨none, 11⟩ (.found ([], i + 1) s) (hT 11 (by decide) (by decide)) (by decide)
        (hideInput_b i) (.nil _ _ _)))
  | succ k ih =>
    intro i hi s
    obtain ⟨t, m, ht, hc⟩ := ih (i + 1) (by omega) s
    have hta := hideInput_a (n := n) (i := i) (by omega)
    refine ⟨_, .mk [.mk [] ⟨none, 10⟩, m] ⟨none, 2⟩, hta, ?_⟩
    show Recovery.Choice _ _ _ _ _ _ _ (cand 2 10) _ _ _
    rw [ha]
    exact .derived _ _ _ _ _ _ _ (.node 2 i _ [10, 2] [] s s [.mk [] ⟨none, 10⟩, m] (n + 1)
      (.terminal _ [2] i s ⟨none, 10⟩ (.found ([.ok m], n + 1) s) (hT 10 (by decide) (by decide)) (by decide) hta
        (.nonTerminal _ 2 [] (i + 1) s s t m (n + 1) [] _ _ hA ht hc (.nil _ _ _) (.found _ _ _ _ _ _ _ _ _))))

theorem hide_derives (n : Nat) : Derives 0 hidePs [2] (List.replicate n 10 ++ [11]) := by
  induction n with
  | zero => exact Derives.of_production (p := ⟨2, [11]⟩) (by decide)
  | succ n ih =>
    have h1 : Derives 0 hidePs [2] [10, 2] := Derives.of_production (p := ⟨2, [10, 2]⟩) (by decide)
    have h2 := Derives.append (eps := 0) (ps := hidePs) (.refl [10]) ih
    exact h1.trans (by simpa [List.replicate_succ] using h2)

/-- **C94**, the place of an error is not in the report: `S → A $`, `A → a A | b` on `n` symbols `a`, a `b` and a
token that is not in the grammar. The table has no conflicts, and the token at position `n + 1` is the first one
that cannot continue the input; but the report is the same for all `n`, and a solver, which always is asked about
position 0, is asked the same for all `n`. -/
theorem C94_position_hidden : EndMarked 0 1 16 hidePs ∧ NoAdjacentRepeat hidePs ∧
    NotLeftRecursive 0 hidePs ∧ Reduced 0 1 hidePs ∧ ∃ g p p' f fp,
    Grammar.new (HashOrder.id Nat) 0 1 hidePs = .ok g ∧
    Built (σ := Unit) (L := Unit) (HashOrder.id Nat) g none p ∧
    Built (HashOrder.id Nat) g (some (logCalls decliner)) p' ∧ ConflictFree p.transitions ∧
    ∀ n, Parses p (hideInput n) () (.err f) () ∧
      Parses p' (hideInput n) ((), []) (.err f) ((), [⟨0, [], false⟩, ⟨0, [fp], false⟩]) ∧
      BeginsSentence 0 1 hidePs (((hideInput n).take (n + 1)).map (·.tType)) ∧
      ¬ BeginsSentence 0 1 hidePs (((hideInput n).take (n + 2)).map (·.tType)) := by
  have hem : EndMarked 0 1 16 hidePs :=
    { ne_eps := by decide
      terminal := by unfold IsNonTerminal; decide
      initial_once := by decide
      initial_ends := by
        intro p hp hi
        refine ⟨[2], ?_, by decide⟩
        revert p
        decide
      only_there := by decide }
  have hadj : NoAdjacentRepeat hidePs := by
    intro p hp u x v he hx
    have : ∀ p ∈ hidePs, ∀ i < p.output.length, p.output[i]? ≠ p.output[i + 1]? := by decide
    refine this p hp u.length (by rw [he]; simp) ?_
    rw [he]
    simp
  have ht : ∀ a ∈ [10, 11, 16], IsTerminal hidePs a ∧ a ≠ 0 := by
    intro a ha
    have : (∃ p ∈ hidePs, a ∈ p.output) ∧ (∀ p ∈ hidePs, p.input ≠ a) ∧ a ≠ 0 := by
      revert a; decide
    exact ⟨⟨this.1, fun ⟨q, hq, hqa⟩ => this.2.1 q hq hqa⟩, this.2.2⟩
  have d1 : Derives 0 hidePs [1] [2, 16] := .of_production (p := ⟨1, [2, 16]⟩) (by decide)
  have hsent : ∀ n, Sentence 0 1 hidePs (List.replicate n 10 ++ [11] ++ [16]) := fun n =>
    ⟨d1.trans (Derives.append (a := [2]) (hide_derives n) (.refl [16])), by
      intro a ha
      refine ht a ?_
      simp only [List.append_assoc, List.mem_append, List.mem_replicate, List.mem_singleton] at ha
      rcases ha with ⟨_, rfl⟩ | rfl | rfl <;> simp⟩
  have hred : Reduced 0 1 hidePs := by
    rintro x ⟨q, hq, rfl⟩
    have hx : q.input ∈ [1, 2] := by revert q; decide
    simp only [List.mem_cons, List.not_mem_nil, or_false] at hx
    rcases hx with hx | hx <;> rw [hx]
    · exact ⟨⟨[], [], .refl _⟩, _, (hsent 0).1, (hsent 0).2⟩
    · exact ⟨⟨[], _, d1⟩, _, hide_derives 0, fun a ha => ht a (by simp at ha; simp [ha])⟩
  refine ⟨hem, hadj,
    notLeftRecursive_of_rank (fun _ => false) (fun x => if x = 1 then 2 else if x = 2 then 1 else 0) (by decide),
    hred, ?_⟩
  obtain ⟨g, p, p', hg, hp, hp', hall, h1, h2, h3, h4, h5, h6⟩ : ∃ g p p',
      Grammar.new (HashOrder.id Nat) 0 1 hidePs = .ok g ∧
      Built (σ := Unit) (L := Unit) (HashOrder.id Nat) g none p ∧
      Built (HashOrder.id Nat) g (some (logCalls decliner)) p' ∧
      (∀ x ∈ hidePs.map (·.input), ∀ a ∈ hidePs.flatMap (·.output),
        ((p.transitions.getProductions x a).getD []).length ≤ 1) ∧
      candidates p'.transitions 1 10 = [[2, 16]] ∧ candidates p'.transitions 1 11 = [[2, 16]] ∧
      candidates p'.transitions 2 10 = [[10, 2]] ∧ candidates p'.transitions 2 11 = [[11]] ∧
      candidates p.transitions 2 10 = [[10, 2]] ∧ candidates p.transitions 2 11 = [[11]] :=
    ⟨_, _, _, rfl, Parser.built_of_eval (n := 10) rfl, Parser.built_of_eval_solver (n := 10) rfl, by decide,
      rfl, rfl, rfl, rfl, rfl, rfl⟩
  have hcf := conflictFree_of_check hg hp hall
  have hS : IsNonTerminal hidePs 1 := ⟨⟨1, [2, 16]⟩, by decide, rfl⟩
  have hA : IsNonTerminal hidePs 2 := ⟨⟨2, [11]⟩, by decide, rfl⟩
  have h16 : ¬ IsNonTerminal hidePs 16 := by unfold IsNonTerminal; decide
  refine ⟨g, p, p', .mk [.mk (.mk [] 16) [] [16]] 1, .mk (.mk [] 16) [] [16], hg, hp, hp', hcf, fun n => ?_⟩
  have hpar : Parses p' (hideInput n) ((), []) (.err (.mk [.mk (.mk [] 16) [] [16]] 1))
      ((), [⟨0, [], false⟩, ⟨0, [.mk (.mk [] 16) [] [16]], false⟩]) := by
    obtain ⟨t, m, htm, hc⟩ := hide_choice h3 h4 (some (logCalls decliner)) n n 0 (by omega) ((), [])
    obtain ⟨t', ts, hts⟩ : ∃ t ts, hideInput n = t :: ts := by
      cases n with
      | zero => exact ⟨_, _, rfl⟩
      | succ n => exact ⟨_, _, rfl⟩
    have hcand : candidates p'.transitions 1 t.tType = [[2, 16]] := by
      rcases Nat.eq_zero_or_pos n with h | h
      · subst h
        rw [hideInput_b 0] at htm
        cases htm
        exact h2
      · rw [hideInput_a h] at htm
        cases htm
        exact h1
    have hseq : Recovery.Seq 0 hidePs (candidates p'.transitions) (some (logCalls decliner)) (hideInput n) true
        [2, 16] 0 ((), []) (.failed (.mk [] 16, []) ((), [⟨0, [], false⟩])) := by
      refine .nonTerminal _ 2 [16] 0 _ _ t m (n + 1) [] _ _ hA htm hc
        (.mismatch _ _ _ _ _ h16 (by decide) ?_) (.gaveUp _ _ _ _ _ _ _ _ _ _
          (.failed _ _ _ _ _ _ _ [] (.none _ _ _ _) rfl))
      intro u hu
      rw [hideInput_x] at hu
      cases hu
      decide
    have hch := Recovery.Choice.failed (eps := 0) (ps := hidePs) (cand := candidates p'.transitions)
      (solver := some (logCalls decliner)) (tokens := hideInput n) 1 0 [[2, 16]] true _ _
      ((), [⟨0, [], false⟩, ⟨0, [.mk (.mk [] 16) [] [16]], false⟩]) _
      (.next 1 0 _ [2, 16] [] _ _ _ _ _ hseq (.none _ _ _ _)) rfl
    rw [← hcand] at hch
    rw [hts] at hch htm ⊢
    simp only [List.getElem?_cons_zero, Option.some.injEq] at htm
    subst htm
    exact ((C38_exact_result _ 0 1 hidePs g hg _ p' hp' t' ts _).1 _ _).2 ⟨_, hch, rfl⟩
  have hpar0 : Parses p (hideInput n) () (.err (.mk [.mk (.mk [] 16) [] [16]] 1)) () :=
    ((C28_declining_solver _ _ 0 1 hidePs g g hg hg (logCalls decliner)
      ⟨fun _ _ _ _ => ⟨_, rfl⟩, fun _ _ _ _ => ⟨_, rfl⟩⟩ p p' hp hp' (hideInput n) () ((), [])).1 _).2 ⟨_, hpar⟩
      |>.choose_spec
  refine ⟨hpar0, hpar, ?_, ?_⟩
  · refine ⟨[16], ?_⟩
    have e : ((hideInput n).take (n + 1)).map (·.tType) = List.replicate n 10 ++ [11] := by
      rw [hideInput, List.take_append, List.take_of_length_le (by simp)]
      simp
    rw [e]
    exact hsent n
  · rintro ⟨z, hz⟩
    have hm : 12 ∈ ((hideInput n).take (n + 2)).map (·.tType) ++ z := by
      rw [List.take_of_length_le (by simp [hideInput])]
      simp [hideInput]
    obtain ⟨⟨⟨q, hq, ho⟩, -⟩, -⟩ := hz.2 12 hm
    revert q
    decide

/-- The hypotheses of `C94_reported_tokens` are met by `S → a S | b` on `a a c`, where `c` is not in the grammar:
non-terminals are only last, and the report mentions the two tokens in front of the error. -/
example : OnlyLastNonTerminal listPs ∧ ∃ g p, Grammar.new (HashOrder.id Nat) 0 1 listPs = .ok g ∧
    Built (σ := Unit) (L := Unit) (HashOrder.id Nat) g none p ∧ IsNonTerminal listPs 1 ∧
    Parses p (listJunk 2) () (.err (listReport 2)) () ∧
      InnermostAfter 0 (listReport 2) 1 [⟨none, 10⟩, ⟨none, 10⟩] :=
  ⟨by unfold OnlyLastNonTerminal IsNonTerminal; decide, _, _, rfl, Parser.built_of_eval (n := 10) rfl,
    by unfold IsNonTerminal; decide, Parser.parse_returns (n := 30) rfl,
    .deep _ 1 _ 1 [⟨none, 10⟩] (List.mem_singleton.2 rfl) (.deep _ 1 _ 1 [] (List.mem_singleton.2 rfl) (.here 1))⟩

/-- The hypotheses of `C94_error_not_before` are met by the grammar of `C94_position_hidden` on `a a b x`: the report
mentions no token although the error is at position 3. -/
example : EndMarked 0 1 16 hidePs ∧ NoAdjacentRepeat hidePs ∧
    (∀ x, IsNonTerminal hidePs x → Productive 0 hidePs x) ∧ IsNonTerminal hidePs 1 ∧ ∃ g p f,
    Grammar.new (HashOrder.id Nat) 0 1 hidePs = .ok g ∧
    Built (σ := Unit) (L := Unit) (HashOrder.id Nat) g none p ∧ ConflictFree p.transitions ∧
    Parses p (hideInput 2) () (.err f) () ∧ InnermostAfter 0 f 16 [] := by
  obtain ⟨h1, h2, -, h4, -⟩ := C94_position_hidden
  refine ⟨h1, h2, fun x hx => (h4 x hx).2, ⟨_, List.mem_cons_self, rfl⟩, ?_⟩
  obtain ⟨g, p, hg, hp, hall, hr⟩ : ∃ g p,
      Grammar.new (HashOrder.id Nat) 0 1 hidePs = .ok g ∧
      Built (σ := Unit) (L := Unit) (HashOrder.id Nat) g none p ∧
      (∀ x ∈ hidePs.map (·.input), ∀ a ∈ hidePs.flatMap (·.output),
        ((p.transitions.getProductions x a).getD []).length ≤ 1) ∧
      Parses p (hideInput 2) () (.err (.mk [.mk (.mk [] 16) [] [16]] 1)) () :=
    ⟨_, _, rfl, Parser.built_of_eval (n := 10) rfl, by decide, Parser.parse_returns (n := 30) rfl⟩
  exact ⟨g, p, _, hg, hp, conflictFree_of_check hg hp hall, hr,
    .deep _ 1 _ 16 [] (List.mem_singleton.2 rfl) (.here 16)⟩

end Verif.Props
