import Verif.Proof.SetRules
import Verif.Props.LL1
import Verif.Props.TableAny

/-!
# Property C69: FIRST and FOLLOW sets given by the user

A parser made from the user's own sets decides the language when those sets obey the textbook rules,
also where the parser that computes the sets itself does not.
-/

set_option linter.unusedSectionVars false

namespace Verif.Props

open Verif.Spec Verif.Examples

variable {σ L T : Type} [DecidableEq T]

/-- Where the parser comes from: the table is made from the computed sets, or from sets of the user. -/
def BuiltAny (h : HashOrder T) (g : Grammar T) (p : Parser σ L T) : Prop :=
  Built h g none p ∨ ∃ ff, Parser.fromGrammarAndFirstFollowSymbols h g ff = .ok p

theorem BuiltAny.parserOf {h : HashOrder T} {eps init : T} {ps : List (Production T)} {g : Grammar T}
    (hg : Grammar.new h eps init ps = .ok g) {p : Parser σ L T} (hp : BuiltAny h g p) :
    Parser.ParserOf eps init ps p ∧ p.syntaxErrorSolver = none := by
  rcases hp with hp | ⟨ff, hp⟩
  · obtain ⟨P, hs⟩ := Parser.tableParser_of_built hg hp
    exact ⟨P.toParserOf, hs⟩
  · exact ⟨Parser.parserOf_of_from hg hp, (Parser.from_eq_ok hp).2.1⟩

/-- Every terminal that predicts a production finds it in its cell of the table. -/
def TableComplete (eps : T) (ps : List (Production T)) (t : Transitions T) : Prop :=
  ∀ q ∈ ps, ∀ a, Predicts eps ps q a → ∃ l, t.getProductions q.input a = some l ∧ q ∈ l

theorem TableComplete.covers {eps : T} {ps : List (Production T)} {p : Parser σ L T}
    (h : TableComplete eps ps p.transitions) : Parser.Covers eps ps p := by
  intro q hq a ha
  obtain ⟨l, h1, h2⟩ := h q hq a ha
  rw [Parser.getTokenProductions_eq]
  unfold candidates
  rw [h1]
  exact List.mem_map.2 ⟨q, h2, rfl⟩

/-- **C69**, for any complete table: if every table cell holds at most one production and the table has
every entry of Algorithm 4.31, then on every input that begins with tokens `w` that have a parse tree `n`,
where the next token can follow the initial symbol or `n` does not end with an empty non-terminal,
`parse_from_tokens` returns `Ok` with exactly the tree `n`. -/
theorem C69_complete_table (h : HashOrder T) (eps init : T) (ps : List (Production T))
    (g : Grammar T) (hg : Grammar.new h eps init ps = .ok g) (p : Parser σ L T)
    (hp : BuiltAny h g p) (hcf : ConflictFree p.transitions) (hcomp : TableComplete eps ps p.transitions)
    (hinit : IsNonTerminal ps init) (w rest : List (Token L T)) (n : Node L T)
    (hn : IsTree eps ps init w n)
    (hrest : (∃ t rest', rest = t :: rest' ∧ CanFollow eps ps init t.tType) ∨ ¬ EndsEmpty eps ps n)
    (s : σ) : Parses p (w ++ rest) s (.ok ⟨n⟩) s := by
  obtain ⟨P, hs⟩ := hp.parserOf hg
  exact Parser.parses_of_tree P hs hcomp.covers (Parser.conflictFree_length hcf) hinit hn hrest s

/-- **C69**, for any complete table: the parser decides the language of an end-marked grammar without
left recursion. -/
theorem C69_complete_table_decides (h : HashOrder T) (eps init : T) (ps : List (Production T))
    (g : Grammar T) (hg : Grammar.new h eps init ps = .ok g) (p : Parser σ L T)
    (hp : BuiltAny h g p) (hcf : ConflictFree p.transitions) (hcomp : TableComplete eps ps p.transitions)
    (hnlr : NotLeftRecursive eps ps) (e : T) (hem : EndMarked eps init e ps)
    (tokens : List (Token L T)) (hin : EndsWith e tokens) (s : σ) :
    (Sentence eps init ps (tokens.map (·.tType)) →
      ∃ tree, Parses p tokens s (.ok tree) s ∧ IsTree eps ps init tokens tree.root) ∧
    (¬ Sentence eps init ps (tokens.map (·.tType)) → ∃ f s', Parses p tokens s (.err f) s') := by
  obtain ⟨P, hsolv⟩ := hp.parserOf hg
  have hwf := P.grammar.wf
  constructor
  · intro hw
    obtain ⟨n, hn⟩ := Parser.tree_of_sentence hw
    have hnt : IsNonTerminal ps init := by
      by_contra hc
      have := Derives.terminal_eq hc hw.1
      obtain ⟨q, hq, hq'⟩ := (hw.2 init (by rw [this]; simp)).1.1
      exact hem.initial_once q hq hq'
    have := C69_complete_table h eps init ps g hg p hp hcf hcomp hnt tokens [] n hn
      (.inr (Parser.not_endsEmpty_of_endMarked hwf hem hnt hn)) s
    rw [List.append_nil] at this
    exact ⟨⟨n⟩, this, hn⟩
  · intro hs
    obtain ⟨n, hn⟩ := Parser.parse_ends (tokens := tokens) P hnlr
      (by rw [hsolv]; rintro pos r ⟨_, sv, _, _, h, _⟩; simp at h) (by rw [hsolv]; intro sv h; simp at h) s
    cases ep : p.parseFromTokens n tokens s with
    | fuel => exact absurd ep hn
    | panic q => exact absurd (Parser.parse_panics ep) (Parser.no_panic_of_endMarked P hsolv hem hin s)
    | ok r =>
      obtain ⟨r, s'⟩ := r
      have hr : Parses p tokens s r s' := Parser.parse_returns ep
      cases r with
      | err f => exact ⟨f, s', hr⟩
      | fix f => exact absurd hr (C27_no_fix_without_solver h eps init ps g hg p hp tokens s s' f)
      | ok tree =>
        exfalso
        apply hs
        obtain ⟨k, _, hnt, htree, _⟩ := ok_tree P hr
        obtain ⟨w', t, hw', ht⟩ := Parser.tree_ends hwf hem hnt htree
        rw [Parser.take_of_ends hin hw' ht] at htree
        refine ⟨htree.derives hwf ?_, ?_⟩
        · rintro rfl
          obtain ⟨q, hq, hqe⟩ := hnt
          exact (hwf q hq).1 hqe
        · intro a ha
          obtain ⟨t, ht, rfl⟩ := List.mem_map.1 ha
          exact Parser.IsTree.terminals htree (.inl hnt) t ht

/-- **C69.** FIRST and FOLLOW sets that obey the textbook rules contain everything that can start or follow
a symbol, … -/
theorem C69_closed_sets_contain (eps : T) (ps : List (Production T)) (hw : WellFormed eps ps)
    (ff : FirstFollow T) (hff : ObeysRules eps ps ff) :
    (∀ x, Nullable eps ps x → InFirst ff x eps) ∧
    (∀ x a, CanStart eps ps x a → InFirst ff x a) ∧
    (∀ x a, IsNonTerminal ps x → CanFollow eps ps x a → InFollow ff x a) :=
  ⟨fun _ h => hff.nullable hw h, fun _ _ h => hff.canStart hw h, fun _ _ hx h => hff.canFollow hw hx h⟩

/-- … so the table made from them is complete, … -/
theorem C69_closed_sets_table (h : HashOrder T) (eps init : T) (ps : List (Production T))
    (g : Grammar T) (hg : Grammar.new h eps init ps = .ok g) (ff : FirstFollow T)
    (hff : ObeysRules eps ps ff) (t : Transitions T) (ht : Transitions.from h g ff = .ok t) :
    TableComplete eps ps t := by
  have G := Grammar.grammarOf_of_new hg
  have hs := (Transitions.from_iff G h ff).1 ⟨t, ht⟩
  obtain ⟨h1, h2⟩ := (C44_table_any_sets h eps init ps g hg ff).2.2 t ht
  intro q hq a ha
  obtain ⟨l, hl⟩ := Option.isSome_iff_exists.1 ((h1 q.input a).2 ⟨⟨q, hq, rfl⟩, ha.1⟩)
  exact ⟨l, hl, ((h2 _ _ _ hl).1 q).2 ⟨hq, rfl, hff.looksAhead G.wf hs hq ha⟩⟩

/-- … and the parser made from them decides the language: let a grammar be end-marked and without left
recursion, let the sets obey the textbook rules and let no table cell made from them have two productions.
Then on every input whose last token is the only end marker, `parse_from_tokens` returns `Ok` with a parse
tree of the whole input if the token types are a sentence of the grammar, and `Err` otherwise. There is no
condition on adjacent non-terminals as in C22. -/
theorem C69_closed_sets_decide (h : HashOrder T) (eps init : T) (ps : List (Production T))
    (g : Grammar T) (hg : Grammar.new h eps init ps = .ok g) (ff : FirstFollow T)
    (hff : ObeysRules eps ps ff) (p : Parser σ L T)
    (hp : Parser.fromGrammarAndFirstFollowSymbols h g ff = .ok p) (hcf : ConflictFree p.transitions)
    (hnlr : NotLeftRecursive eps ps) (e : T) (hem : EndMarked eps init e ps)
    (tokens : List (Token L T)) (hin : EndsWith e tokens) (s : σ) :
    (Sentence eps init ps (tokens.map (·.tType)) →
      ∃ tree, Parses p tokens s (.ok tree) s ∧ IsTree eps ps init tokens tree.root) ∧
    (¬ Sentence eps init ps (tokens.map (·.tType)) → ∃ f s', Parses p tokens s (.err f) s') :=
  C69_complete_table_decides h eps init ps g hg p (.inr ⟨ff, hp⟩) hcf
    (C69_closed_sets_table h eps init ps g hg ff hff _ (Parser.from_eq_ok hp).2.2) hnlr e hem tokens hin s

/-! ## The hypotheses can be met -/

/-- Textbook sets for `S → X X $`, `X → a Z`, `Z → b | ε` (`twicePs`): FOLLOW(`X`) = FOLLOW(`Z`) = `{a, $}`. -/
def twiceSets : FirstFollow Nat :=
  ⟨[(1, [10]), (2, [10]), (3, [11, 0]), (10, [10]), (11, [11]), (12, [12]), (0, [0])],
   [(1, []), (2, [10, 12]), (3, [10, 12])]⟩

/-- The sets obey the rules, the grammar meets the other hypotheses, and `a a $`, which the parser with
computed sets rejects (C23), is accepted. -/
theorem C69_repairs : ∃ g p t f, Grammar.new (HashOrder.id Nat) 0 1 twicePs = .ok g ∧
    ObeysRules 0 twicePs twiceSets ∧
    Parser.fromGrammarAndFirstFollowSymbols (HashOrder.id Nat) g twiceSets = .ok p ∧
    ConflictFree p.transitions ∧ NotLeftRecursive 0 twicePs ∧ EndMarked 0 1 12 twicePs ∧
    EndsWith 12 ([⟨some (), 10⟩, ⟨some (), 10⟩, ⟨none, 12⟩] : List (Token Unit Nat)) ∧
    Parses (p : Parser Unit Unit Nat) [⟨some (), 10⟩, ⟨some (), 10⟩, ⟨none, 12⟩] () (.ok t) () ∧
    Parses p [⟨some (), 10⟩, ⟨some (), 11⟩, ⟨some (), 11⟩, ⟨none, 12⟩] () (.err f) () ∧
    ∃ p' f', Built (HashOrder.id Nat) g none (p' : Parser Unit Unit Nat) ∧
      Parses p' [⟨some (), 10⟩, ⟨some (), 10⟩, ⟨none, 12⟩] () (.err f') () := by
  obtain ⟨g, p, t, f, hg, hp, hall, hr, hf, p', f', hp', hr'⟩ : ∃ g p t f,
      Grammar.new (HashOrder.id Nat) 0 1 twicePs = .ok g ∧
      Parser.fromGrammarAndFirstFollowSymbols (HashOrder.id Nat) g twiceSets = .ok p ∧
      (∀ x ∈ twicePs.map (·.input), ∀ a ∈ twicePs.flatMap (·.output),
        ((p.transitions.getProductions x a).getD []).length ≤ 1) ∧
      Parses (p : Parser Unit Unit Nat) [⟨some (), 10⟩, ⟨some (), 10⟩, ⟨none, 12⟩] () (.ok t) () ∧
      Parses p [⟨some (), 10⟩, ⟨some (), 11⟩, ⟨some (), 11⟩, ⟨none, 12⟩] () (.err f) () ∧
      ∃ p' f', Built (HashOrder.id Nat) g none (p' : Parser Unit Unit Nat) ∧
        Parses p' [⟨some (), 10⟩, ⟨some (), 10⟩, ⟨none, 12⟩] () (.err f') () :=
    ⟨_, _, _, _, rfl, rfl, by decide, Parser.parse_returns (n := 40) rfl,
      Parser.parse_returns (n := 40) rfl, _, _, Parser.built_of_eval (n := 10) rfl,
      Parser.parse_returns (n := 40) rfl⟩
  obtain ⟨_, _, _, _, _, hnlr, hem, _⟩ := C23_ll1_grammar_incomplete
  refine ⟨g, p, t, f, hg, obeysRules_of_check (by decide), hp, ?_, hnlr, hem, ?_, hr, hf, p', f', hp', hr'⟩
  · intro x a l hl
    obtain ⟨h1, _⟩ := (C44_table_any_sets _ _ _ _ g hg twiceSets).2.2 _ (Parser.from_eq_ok hp).2.2
    obtain ⟨⟨q, hq, hqx⟩, ⟨q', hq', hqa⟩, _⟩ := (h1 x a).1 (by simp [hl])
    have := hall x (List.mem_map.2 ⟨q, hq, hqx⟩) a (List.mem_flatMap.2 ⟨q', hq', hqa⟩)
    rw [hl] at this
    simpa using this
  · exact ⟨[⟨some (), 10⟩, ⟨some (), 10⟩], ⟨none, 12⟩, rfl, rfl, by decide⟩

end Verif.Props
