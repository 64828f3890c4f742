import Verif.Proof.Leftmost
import Verif.Props.Predictive
import Verif.Props.Guard
import Verif.Props.Local

/-!
# Properties C73 and C18: inputs that stop inside of a sentence
-/

set_option linter.unusedSectionVars false

namespace Verif.Props

open Verif.Spec Verif.Examples

variable {σ L T : Type} [DecidableEq T]

/-- **C18**, when a panic is possible. A parser without solver panics on a non-empty input only if all of the
input can be derived and a non-terminal is next: the token types, followed by that non-terminal, begin a
form derived from the initial symbol. This holds for every grammar and table. -/
theorem C18_panic_stops_before_non_terminal (h : HashOrder T) (eps init : T) (ps : List (Production T))
    (g : Grammar T) (hg : Grammar.new h eps init ps = .ok g) (p : Parser σ L T) (hp : BuiltAny h g p)
    (tokens : List (Token L T)) (hne : tokens ≠ []) (s : σ) (hpan : ParsePanics p tokens s) :
    StopsBeforeNonTerminal eps init ps (tokens.map (·.tType)) ∧
      ∃ x v, IsNonTerminal ps x ∧ Derives eps ps [init] (tokens.map (·.tType) ++ x :: v) := by
  obtain ⟨P, hs⟩ := hp.parserOf hg
  have hwf := P.grammar.wf
  suffices hmain : StopsBeforeNonTerminal eps init ps (tokens.map (·.tType)) by
    refine ⟨hmain, ?_⟩
    obtain ⟨x, st, hx, hrun⟩ := hmain
    obtain ⟨u, hu, hd⟩ := Parser.Run.derives hwf hrun
    simp only [List.append_nil] at hu
    subst hu
    have hxe : x ≠ eps := by rintro rfl; obtain ⟨q, hq, hqe⟩ := hx; exact (hwf q hq).1 hqe
    rw [Parser.strip_cons_ne hxe] at hd
    by_cases hie : init = eps
    · exfalso
      subst hie
      rw [Parser.strip_cons_self] at hd
      have := hd.nil_eq
      simp at this
    · rw [Parser.strip_cons_ne hie] at hd
      exact ⟨x, _, hx, hd⟩
  cases tokens with
  | nil => exact absurd rfl hne
  | cons t ts =>
    have hc := (Parser.parse_iff_choice P hs t ts s).2.2.1.1 hpan
    obtain ⟨out, ho, x, st, hx, hrun⟩ := Parser.choice_run P.cand hc
    refine ⟨x, st, hx, .expand ⟨init, out⟩ _ _ _ _ (P.cand _ _ _ ho) (by simp) ?_⟩
    simpa [Parser.typesFrom] using hrun

/-- **C18**, in particular: if every non-terminal derives terminals, a parser without solver does not panic on an
input that is not the beginning of a sentence. -/
theorem C18_panic_begins_sentence (h : HashOrder T) (eps init : T) (ps : List (Production T))
    (g : Grammar T) (hg : Grammar.new h eps init ps = .ok g) (p : Parser σ L T) (hp : BuiltAny h g p)
    (hpr : ∀ x, IsNonTerminal ps x → Productive eps ps x) (tokens : List (Token L T)) (hne : tokens ≠ [])
    (s : σ) (hpan : ParsePanics p tokens s) : BeginsSentence eps init ps (tokens.map (·.tType)) := by
  obtain ⟨P, hs⟩ := hp.parserOf hg
  obtain ⟨⟨x, st, _, hrun⟩, _⟩ :=
    C18_panic_stops_before_non_terminal h eps init ps g hg p hp tokens hne s hpan
  have hinit : IsNonTerminal ps init := by
    generalize hw : tokens.map (·.tType) = w at hrun
    cases tokens with
    | nil => exact absurd rfl hne
    | cons t ts =>
      have hc := (Parser.parse_iff_choice P hs t ts s).2.2.1.1 hpan
      obtain ⟨out, ho, _⟩ := Parser.choice_run P.cand hc
      exact ⟨_, P.cand _ _ _ ho, rfl⟩
  exact Parser.begins_of_run P.grammar.wf hpr hinit hrun

/-- The tokens of a predicted tree can be read. -/
theorem predicted_run {eps : T} {ps : List (Production T)} {cand : T → T → List (List T)}
    (hcand : ∀ x a o, o ∈ cand x a → (⟨x, o⟩ : Production T) ∈ ps) {tokens : List (Token L T)} {x : T}
    {i j : Nat} {n : Node L T} (h : Predicted eps ps cand tokens x i n j) :
    Run eps ps (Parser.typesFrom tokens i) [x] (Parser.typesFrom tokens j) [] := by
  refine Predicted.rec (eps := eps) (ps := ps) (cand := cand) (tokens := tokens)
    (motive_1 := fun x i _ j _ => Run eps ps (Parser.typesFrom tokens i) [x] (Parser.typesFrom tokens j) [])
    (motive_2 := fun xs i _ j _ => Run eps ps (Parser.typesFrom tokens i) xs (Parser.typesFrom tokens j) [])
    ?_ ?_ ?_ ?_ ?_ h
  · intro t i h1 h2 h3
    rw [Parser.typesFrom_cons h3]
    exact .read _ _ _ _ _ h1 h2 (.refl _ _)
  · intro i
    exact .skip _ _ _ _ (.refl _ _)
  · intro x i t out ns j _ ht ho _ ih
    refine .expand ⟨x, out⟩ _ _ _ _ (hcand _ _ _ ho) ?_ (by simpa using ih)
    rw [Parser.typesFrom_cons ht]; simp
  · intro i; exact .refl _ _
  · intro x xs i j k n ns _ _ ih1 ih2
    exact (by simpa using Parser.Run.append ih1 xs : Run eps ps _ (x :: xs) _ xs).trans ih2

section Complete

variable (h : HashOrder T) (eps init : T) (ps : List (Production T))
  (g : Grammar T) (hg : Grammar.new h eps init ps = .ok g) (p : Parser σ L T) (hp : BuiltAny h g p)
  (hcf : ConflictFree p.transitions) (hcomp : TableComplete eps ps p.transitions)
  (hinit : IsNonTerminal ps init) (tokens : List (Token L T)) (s : σ)

include hg hp hcf hcomp hinit

/-- **C73.** Let no table cell have two productions and let the table have every entry of Algorithm 4.31. Then
`parse_from_tokens` panics exactly on the inputs that can be read to their end with a non-terminal next, … -/
theorem C73_panics_iff :
    ParsePanics p tokens s ↔ StopsBeforeNonTerminal eps init ps (tokens.map (·.tType)) := by
  obtain ⟨P, hs⟩ := hp.parserOf hg
  cases tokens with
  | nil =>
    refine ⟨fun _ => ⟨init, [], hinit, .refl _ _⟩, fun _ => ?_⟩
    exact Parser.parse_panics (n := 0) (e := .emptyInput) rfl
  | cons t ts =>
    constructor
    · intro hpan
      exact (C18_panic_stops_before_non_terminal h eps init ps g hg p hp _ (by simp) s hpan).1
    · rintro ⟨x, st, hx, hrun⟩
      have hxe : x ≠ eps := by
        rintro rfl; obtain ⟨q, hq, hqe⟩ := hx; exact (P.grammar.wf q hq).1 hqe
      rcases Parser.choice_of_run P hcomp.covers (Parser.conflictFree_length hcf) hinit
          (by intro st1 he; simp only [List.cons.injEq] at he; exact hxe he.1) hrun with
        ⟨_, _, he, _⟩ | ⟨_, _, _, _, hc⟩ | ⟨k, st1, he, hk, _⟩
      · simp at he
      · exact (Parser.parse_iff_choice P hs t ts s).2.2.1.2 hc
      · simp only [List.cons.injEq] at he
        obtain ⟨rfl, rfl⟩ := he
        exact absurd hx hk

/-- … and returns `Ok` with a tree over all tokens exactly on the inputs that can be read to their end with
nothing left to derive. -/
theorem C73_accepts_all_iff :
    (∃ tree, Parses p tokens s (.ok tree) s ∧ IsTree eps ps init tokens tree.root) ↔
      ReadsAll eps init ps (tokens.map (·.tType)) := by
  obtain ⟨P, hs⟩ := hp.parserOf hg
  have hwf := P.grammar.wf
  cases tokens with
  | nil =>
    constructor
    · rintro ⟨tree, hr, _⟩
      obtain ⟨n, hn⟩ := Parser.parses_at hr
      simp [Parser.parseFromTokens] at hn
    · intro hrun
      unfold ReadsAll at hrun
      generalize hw : ([] : List (Token L T)).map (·.tType) = w at hrun
      cases hrun with
      | skip => obtain ⟨q, hq, hqe⟩ := hinit; exact absurd hqe (hwf q hq).1
      | read => simp at hw
      | expand q _ _ _ _ _ hne => exact absurd hw.symm hne
  | cons t ts =>
    constructor
    · rintro ⟨tree, hr, htree⟩
      obtain ⟨k, hk⟩ := C70_ok_predicted h eps init ps g hg p
        (hp.elim (fun hp => .inl ⟨none, hp⟩) .inr) _ s s tree hr
      have hcand : ∀ x a o, o ∈ candidates p.transitions x a → (⟨x, o⟩ : Production T) ∈ ps := by
        rw [candidates_eq]; exact P.cand
      have hk' := PredictedSeq.position hwf hcand (.cons _ _ _ _ _ _ _ hk (.nil _))
      simp only [leavesList, List.append_nil, isTree_leaves hwf htree, Nat.zero_add] at hk'
      have hrun := predicted_run hcand hk
      have : Parser.typesFrom (t :: ts) k = [] := by
        unfold Parser.typesFrom
        rw [hk', List.drop_eq_nil_of_le (Nat.le_refl _)]
        rfl
      rw [this] at hrun
      simpa [Parser.typesFrom, ReadsAll] using hrun
    · intro hrun
      rcases Parser.choice_of_run P hcomp.covers (Parser.conflictFree_length hcf) hinit
          (by simp) hrun with
        ⟨n, q, _, htree, hc⟩ | ⟨k, st1, he, _⟩ | ⟨k, st1, he, _⟩
      · exact ⟨⟨n⟩, ((Parser.parse_iff_choice P hs t ts s).1 ⟨n⟩ s).2 ⟨rfl, q, [], hc⟩, htree⟩
      · simp at he
      · simp at he

/-- **C73.** On every beginning of a sentence one of three things happens: `Ok` with a tree over all tokens, a
panic, or `Err`; the last exactly if the input can be read to its end with a terminal next. -/
theorem C73_beginning_of_sentence (hb : BeginsSentence eps init ps (tokens.map (·.tType))) :
    ((∃ tree, Parses p tokens s (.ok tree) s ∧ IsTree eps ps init tokens tree.root) ∨
      ParsePanics p tokens s ∨ ∃ f, Parses p tokens s (.err f) s) ∧
    ((∃ f, Parses p tokens s (.err f) s) ↔ StopsBeforeTerminal eps init ps (tokens.map (·.tType))) := by
  obtain ⟨P, hs⟩ := hp.parserOf hg
  cases tokens with
  | nil =>
    have hpan := C18_empty_input_panics p s
    refine ⟨.inr (.inl hpan), fun ⟨f, hf⟩ => absurd hpan (parses_not_panics hf), ?_⟩
    rintro ⟨x, st, hx, hxe, hrun⟩
    exfalso
    generalize hw : ([] : List (Token L T)).map (·.tType) = w at hrun
    cases hrun with
    | refl => exact hx hinit
    | skip => obtain ⟨q, hq, hqe⟩ := hinit; exact absurd hqe (P.grammar.wf q hq).1
    | read => simp at hw
    | expand q _ _ _ _ _ hne => exact absurd hw.symm hne
  | cons t ts =>
    have herr : Choice eps ps p.getTokenProductions (t :: ts) init 0 (p.getTokenProductions init t.tType)
        .failed → ∃ f, Parses p (t :: ts) s (.err f) s := by
      intro hc
      obtain ⟨f, s', hf⟩ := (Parser.parse_iff_choice P hs t ts s).2.1.2 hc
      obtain rfl := state_of_none P hs hf
      exact ⟨f, hf⟩
    obtain ⟨st, hrun, hst⟩ := Parser.stops_of_begins hb
    constructor
    · rcases Parser.choice_of_run P hcomp.covers (Parser.conflictFree_length hcf) hinit hst hrun with
        ⟨n, q, _, htree, hc⟩ | ⟨_, _, _, _, hc⟩ | ⟨_, _, _, _, hc⟩
      · exact .inl ⟨⟨n⟩, ((Parser.parse_iff_choice P hs t ts s).1 ⟨n⟩ s).2 ⟨rfl, q, [], hc⟩, htree⟩
      · exact .inr (.inl ((Parser.parse_iff_choice P hs t ts s).2.2.1.2 hc))
      · exact .inr (.inr (herr hc))
    · constructor
      · rintro ⟨f, hf⟩
        cases st with
        | nil =>
          obtain ⟨tree, hr, _⟩ := (C73_accepts_all_iff h eps init ps g hg p hp hcf hcomp hinit (t :: ts) s).2 hrun
          have := (Parser.Parses.det hr hf).1
          simp at this
        | cons k st =>
          by_cases hk : IsNonTerminal ps k
          · have := (C73_panics_iff h eps init ps g hg p hp hcf hcomp hinit (t :: ts) s).2 ⟨k, st, hk, hrun⟩
            exact absurd this (parses_not_panics hf)
          · exact ⟨k, st, hk, fun hke => hst st (by rw [hke]), hrun⟩
      · rintro ⟨k, st, hk, hke, hrun⟩
        rcases Parser.choice_of_run P hcomp.covers (Parser.conflictFree_length hcf) hinit
            (by intro st1 he; simp only [List.cons.injEq] at he; exact hke he.1) hrun with
          ⟨n, q, he, _⟩ | ⟨k', st', he, hk', hc⟩ | ⟨_, _, _, _, hc⟩
        · simp at he
        · simp only [List.cons.injEq] at he
          obtain ⟨rfl, rfl⟩ := he
          exact absurd hk' hk
        · exact herr hc

/-- **C73.** A sentence is never rejected, with or without an end marker: `Ok` with a tree over all tokens, or a
panic. -/
theorem C73_sentence (hw : Sentence eps init ps (tokens.map (·.tType))) :
    (∃ tree, Parses p tokens s (.ok tree) s ∧ IsTree eps ps init tokens tree.root) ∨
      ParsePanics p tokens s := by
  obtain ⟨P, hs⟩ := hp.parserOf hg
  rcases Parser.reads_sentence P.grammar.wf hw with hr | hr
  · exact .inl ((C73_accepts_all_iff h eps init ps g hg p hp hcf hcomp hinit tokens s).2 hr)
  · exact .inr ((C73_panics_iff h eps init ps g hg p hp hcf hcomp hinit tokens s).2 hr)

end Complete

/-- The computed table is complete if no production has two equal adjacent non-terminals. -/
theorem tableComplete_of_noAdjacentRepeat {h : HashOrder T} {eps init : T} {ps : List (Production T)}
    {g : Grammar T} (hg : Grammar.new h eps init ps = .ok g) {solver : Option (Solver σ L T)}
    {p : Parser σ L T} (hp : Built h g solver p) (hadj : NoAdjacentRepeat ps) :
    TableComplete eps ps p.transitions := by
  obtain ⟨ff, hff, e⟩ := (Parser.built_iff hg).1 hp
  intro q hq a ha
  refine C13_table_complete_partial h eps init ps g hg ff hff p.transitions (Parser.from_eq_ok e).2.2
    hadj q hq a ha.1 ha.2.1 ?_
  rcases ha.2.2 with h1 | ⟨h1, h2⟩
  · exact .inl h1
  · exact .inr ⟨h1, h2.2.2⟩

/-- C73 and C18: the expression grammar meets the hypotheses. `( id`, where `T'` is next, panics; `id $` is
accepted. -/
example : ∃ g p t, Grammar.new (HashOrder.id Nat) 0 1 exprPs = .ok g ∧
    BuiltAny (HashOrder.id Nat) g (p : Parser Unit Unit Nat) ∧ ConflictFree p.transitions ∧
    TableComplete 0 exprPs p.transitions ∧ IsNonTerminal exprPs 1 ∧
    ParsePanics p [⟨some (), 13⟩, ⟨some (), 15⟩] () ∧
    Parses p [⟨some (), 15⟩, ⟨none, 16⟩] () (.ok t) () := by
  obtain ⟨g, p, t, hg, hp, hr, hpan⟩ : ∃ g p t, Grammar.new (HashOrder.id Nat) 0 1 exprPs = .ok g ∧
      Built (HashOrder.id Nat) g none (p : Parser Unit Unit Nat) ∧
      Parses p [⟨some (), 15⟩, ⟨none, 16⟩] () (.ok t) () ∧
      ParsePanics p [⟨some (), 13⟩, ⟨some (), 15⟩] () :=
    ⟨_, _, _, rfl, Parser.built_of_eval (n := 10) rfl, Parser.parse_returns (n := 40) rfl,
      Parser.parse_panics (n := 40) (e := .unwrapNone) rfl⟩
  refine ⟨g, p, t, hg, .inl hp, exprPs_conflictFree p _ g hg none hp, ?_, by unfold IsNonTerminal; decide,
    hpan, hr⟩
  exact tableComplete_of_noAdjacentRepeat hg hp exprPs_noAdjacentRepeat

/-- `S → a B c`, `B → b | ε`. -/
def shortPs : List (Production Nat) := [⟨1, [10, 2, 12]⟩, ⟨2, [11]⟩, ⟨2, [0]⟩]

/-- Without end marker: of the beginnings of the sentence `a b c`, the first panics, the second is an error
and the last is accepted. -/
theorem C73_three_cases : ∃ g p f t, Grammar.new (HashOrder.id Nat) 0 1 shortPs = .ok g ∧
    BuiltAny (HashOrder.id Nat) g (p : Parser Unit Unit Nat) ∧ ConflictFree p.transitions ∧
    TableComplete 0 shortPs p.transitions ∧ IsNonTerminal shortPs 1 ∧
    Sentence 0 1 shortPs [10, 11, 12] ∧
    ParsePanics p [⟨some (), 10⟩] () ∧
    Parses p [⟨some (), 10⟩, ⟨some (), 11⟩] () (.err f) () ∧
    Parses p [⟨some (), 10⟩, ⟨some (), 11⟩, ⟨some (), 12⟩] () (.ok t) () := by
  obtain ⟨g, p, f, t, hg, hp, hr, h1, h2, hall⟩ : ∃ g p f t,
      Grammar.new (HashOrder.id Nat) 0 1 shortPs = .ok g ∧
      Built (HashOrder.id Nat) g none (p : Parser Unit Unit Nat) ∧
      ParsePanics p [⟨some (), 10⟩] () ∧
      Parses p [⟨some (), 10⟩, ⟨some (), 11⟩] () (.err f) () ∧
      Parses p [⟨some (), 10⟩, ⟨some (), 11⟩, ⟨some (), 12⟩] () (.ok t) () ∧
      (∀ x ∈ shortPs.map (·.input), ∀ a ∈ shortPs.flatMap (·.output),
        ((p.transitions.getProductions x a).getD []).length ≤ 1) :=
    ⟨_, _, _, _, rfl, Parser.built_of_eval (n := 10) rfl,
      Parser.parse_panics (n := 40) (e := .unwrapNone) rfl, Parser.parse_returns (n := 40) rfl,
      Parser.parse_returns (n := 40) rfl, by decide⟩
  refine ⟨g, p, f, t, hg, .inl hp, conflictFree_of_check hg hp hall,
    tableComplete_of_noAdjacentRepeat hg hp (noAdjacentRepeat_of_check (by decide)),
    by unfold IsNonTerminal; decide, ⟨?_, ?_⟩, hr, h1, h2⟩
  · have d1 : Derives 0 shortPs [1] [10, 2, 12] := .of_production (p := ⟨1, [10, 2, 12]⟩) (by decide)
    have d2 : Derives 0 shortPs [2] [11] := .of_production (p := ⟨2, [11]⟩) (by decide)
    exact d1.trans (d2.context [10] [12])
  · unfold IsTerminal IsNonTerminal; decide

end Verif.Props
