import Verif.Proof.Built
import Verif.Spec.Examples

/-!
# Properties C15, C16, C25–C27, C31, C33–C35: what a result of `parse_from_tokens` is
-/

set_option linter.unusedSectionVars false

namespace Verif.Props

open Verif.Spec Verif.Examples

variable {σ L T : Type} [DecidableEq T]

/-- Every accepted grammar gives a parser, with and without a solver. -/
theorem parser_built (h : HashOrder T) (eps init : T) (ps : List (Production T)) (g : Grammar T)
    (hg : Grammar.new h eps init ps = .ok g) (solver : Option (Solver σ L T)) :
    ∃ p, Built h g solver p := Parser.built_exists hg solver

/-- The tree of an `Ok` result, for any parser over the grammar. -/
theorem ok_tree {eps init : T} {ps : List (Production T)} {p : Parser σ L T}
    (P : Parser.ParserOf eps init ps p) {tokens : List (Token L T)} {s s' : σ} {tree : Tree L T}
    (hr : Parses p tokens s (.ok tree) s') :
    ∃ k, k ≤ tokens.length ∧ IsNonTerminal ps init ∧
      IsTree eps ps init (tokens.take k) tree.root ∧ tree.root.token = ⟨none, init⟩ ∧
      leaves eps tree.root = tokens.take k := by
  obtain ⟨n, hn⟩ := Parser.parses_at hr
  obtain ⟨t, _, r', h1, _, h2⟩ := Parser.parse_post P hn
  cases r' with
  | err f => simp [Parser.toParseResult] at h1
  | fix f => simp [Parser.toParseResult] at h1
  | ok st =>
    simp only [Parser.toParseResult, ParseResult.ok.injEq] at h1
    subst h1
    obtain ⟨ho, rest, _, hlt, _⟩ := h2
    have hnt : IsNonTerminal ps init := by
      have : 0 < (p.getTokenProductions init t.tType).length := by omega
      obtain ⟨o, ho⟩ := List.exists_mem_of_length_pos this
      exact ⟨_, P.cand _ _ _ ho, rfl⟩
    have htree := ho.tree
    rw [Parser.word_zero] at htree
    refine ⟨min st.finalTokenPosition tokens.length, by omega, hnt, ?_, ?_, ?_⟩
    · rw [List.take_eq_take_min] at htree
      exact htree
    · show st.node.token = _
      generalize List.take st.finalTokenPosition tokens = w at htree
      generalize st.node = nd at htree
      cases htree with
      | leaf t h' => exact absurd hnt h'
      | eps => rfl
      | node => rfl
    · rw [← List.take_eq_take_min]
      exact isTree_leaves P.grammar.wf htree

/-- **C15.** An `Ok` result is a parse tree of the initial symbol over a prefix of the input, with or
without a solver; its root carries no lexeme, and the initial symbol derives the token types of that
prefix. -/
theorem C15_ok_is_parse_tree (h : HashOrder T) (eps init : T) (ps : List (Production T))
    (g : Grammar T) (hg : Grammar.new h eps init ps = .ok g) (solver : Option (Solver σ L T))
    (p : Parser σ L T) (hp : Built h g solver p) (tokens : List (Token L T)) (s s' : σ)
    (tree : Tree L T) (hr : Parses p tokens s (.ok tree) s') :
    tree.root.token = ⟨none, init⟩ ∧ ∃ k, k ≤ tokens.length ∧
      IsTree eps ps init (tokens.take k) tree.root ∧
      Derives eps ps [init] ((tokens.take k).map (·.tType)) := by
  have P := (Parser.tableParser_of_built hg hp).1
  obtain ⟨k, hk, hnt, h1, h2, _⟩ := ok_tree P.toParserOf hr
  refine ⟨h2, k, hk, h1, h1.derives P.grammar.wf ?_⟩
  obtain ⟨q, hq, rfl⟩ := hnt
  exact (P.grammar.wf q hq).1

/-- **C16.** The leaves of an `Ok` tree other than `eps` leaves are, from left to right, the first
tokens of the input, with their lexemes. -/
theorem C16_leaves_are_prefix (h : HashOrder T) (eps init : T) (ps : List (Production T))
    (g : Grammar T) (hg : Grammar.new h eps init ps = .ok g) (solver : Option (Solver σ L T))
    (p : Parser σ L T) (hp : Built h g solver p) (tokens : List (Token L T)) (s s' : σ)
    (tree : Tree L T) (hr : Parses p tokens s (.ok tree) s') :
    (leaves eps tree.root).IsPrefix tokens := by
  obtain ⟨k, _, _, _, _, h1⟩ := ok_tree (Parser.tableParser_of_built hg hp).1.toParserOf hr
  rw [h1]
  exact List.take_prefix _ _

/-- **C33.** The same for a parser made from any FIRST and FOLLOW sets whatsoever, as long as its
construction does not panic. -/
theorem C33_any_first_follow_sound (h : HashOrder T) (eps init : T) (ps : List (Production T))
    (g : Grammar T) (hg : Grammar.new h eps init ps = .ok g) (ff : FirstFollow T) (p : Parser σ L T)
    (hp : Parser.fromGrammarAndFirstFollowSymbols h g ff = .ok p) (tokens : List (Token L T))
    (s s' : σ) (tree : Tree L T) (hr : Parses p tokens s (.ok tree) s') :
    tree.root.token = ⟨none, init⟩ ∧ ∃ k, k ≤ tokens.length ∧
      IsTree eps ps init (tokens.take k) tree.root ∧ leaves eps tree.root = tokens.take k ∧
      Derives eps ps [init] ((tokens.take k).map (·.tType)) := by
  have P := Parser.parserOf_of_from hg hp
  obtain ⟨k, hk, hnt, h1, h2, h3⟩ := ok_tree P hr
  refine ⟨h2, k, hk, h1, h3, h1.derives P.grammar.wf ?_⟩
  obtain ⟨q, hq, rfl⟩ := hnt
  exact (P.grammar.wf q hq).1

/-- The parser for the expression grammar accepts `x + y $`: the hypotheses of C15 and C16 are met,
by a tree with 4 leaves and lexemes in it. -/
example : ∃ g p tree, Grammar.new (HashOrder.id Nat) 0 1 exprPs = .ok g ∧
    Built (σ := Unit) (L := String) (HashOrder.id Nat) g none p ∧
    Parses p [⟨some "x", 15⟩, ⟨none, 11⟩, ⟨some "y", 15⟩, ⟨none, 16⟩] () (.ok tree) () ∧
    leaves 0 tree.root = [⟨some "x", 15⟩, ⟨none, 11⟩, ⟨some "y", 15⟩, ⟨none, 16⟩] :=
  ⟨_, _, _, rfl, Parser.built_of_eval (n := 10) rfl, Parser.parse_returns (n := 20) rfl, rfl⟩

/-- User-made sets that are not those of the grammar (`S → a | b` with FIRST(S) swapped) meet the
hypotheses of C33: the parser is built, rejects `b` and accepts `a b`. -/
example : ∃ g p tree, Grammar.new (HashOrder.id Nat) 0 1 [⟨1, [10]⟩, ⟨1, [11, 12]⟩] = .ok g ∧
    Parser.fromGrammarAndFirstFollowSymbols (σ := Unit) (L := Unit) (HashOrder.id Nat) g
      ⟨[(10, [10]), (11, [10]), (12, [12]), (1, [12])], [(1, [])]⟩ = .ok p ∧
    Parses p [⟨none, 10⟩, ⟨none, 11⟩] () (.ok tree) () ∧
    Parses p [⟨none, 11⟩, ⟨none, 12⟩] () (.err (.mk [] 1)) () :=
  ⟨_, _, _, rfl, rfl, Parser.parse_returns (n := 20) rfl, Parser.parse_returns (n := 20) rfl⟩

/-! ## Err results -/

theorem err_post {eps init : T} {ps : List (Production T)} {p : Parser σ L T}
    (P : Parser.ParserOf eps init ps p) {tokens : List (Token L T)} {s s' : σ}
    {f : FailedSymbol L T} (hr : Parses p tokens s (.err f) s') :
    ∃ t, tokens[0]? = some t ∧ f.symbolToDerive = init ∧
      FailedProdsOk eps ps p.syntaxErrorSolver.isSome (candidates p.transitions) tokens
        (candidates p.transitions init t.tType) f.failedProductions := by
  obtain ⟨n, hn⟩ := Parser.parses_at hr
  obtain ⟨t, ht, r', h1, _, h2⟩ := Parser.parse_post P hn
  have hc : p.getTokenProductions = candidates p.transitions := by
    funext x a
    exact Parser.getTokenProductions_eq p x a
  cases r' with
  | ok st => simp [Parser.toParseResult] at h1
  | fix st => simp [Parser.toParseResult] at h1
  | err f' =>
    simp only [Parser.toParseResult, ParseResult.err.injEq] at h1
    subst h1
    obtain ⟨fps, rfl, h3⟩ := h2
    rw [hc] at h3
    exact ⟨t, ht, rfl, h3⟩

theorem failedProdsOk_length {eps : T} {ps : List (Production T)} {solver : Bool}
    {cand : T → T → List (List T)} {tokens : List (Token L T)} {outs : List (List T)}
    {fps : List (FailedProduction L T)} (h : FailedProdsOk eps ps solver cand tokens outs fps) :
    fps.length = outs.length := Parser.FailedProdsOk.length h

/-- **C25.** An `Err` result is for the initial symbol and lists one failed production per candidate
production of the first token, in candidate order, each of them as `FailedProdsOk` says. -/
theorem C25_err_lists_candidates (h : HashOrder T) (eps init : T) (ps : List (Production T))
    (g : Grammar T) (hg : Grammar.new h eps init ps = .ok g) (solver : Option (Solver σ L T))
    (p : Parser σ L T) (hp : Built h g solver p) (tokens : List (Token L T)) (s s' : σ)
    (f : FailedSymbol L T) (hr : Parses p tokens s (.err f) s') :
    ∃ t, tokens.head? = some t ∧ f.symbolToDerive = init ∧
      f.failedProductions.length = (candidates p.transitions init t.tType).length ∧
      FailedProdsOk eps ps solver.isSome (candidates p.transitions) tokens
        (candidates p.transitions init t.tType) f.failedProductions := by
  obtain ⟨P, hs⟩ := Parser.tableParser_of_built hg hp
  obtain ⟨t, ht, h1, h2⟩ := err_post P.toParserOf hr
  rw [hs] at h2
  refine ⟨t, ?_, h1, failedProdsOk_length h2, h2⟩
  rw [List.head?_eq_getElem?]; exact ht

/-- The failing production of a failed production in a list. -/
theorem mem_failedProdsOk {eps : T} {ps : List (Production T)} {solver : Bool}
    {cand : T → T → List (List T)} {tokens : List (Token L T)} {outs : List (List T)}
    {fps : List (FailedProduction L T)} (h : FailedProdsOk eps ps solver cand tokens outs fps)
    {fp : FailedProduction L T} (hfp : fp ∈ fps) :
    ∃ before x after, (before ++ x :: after) ∈ outs ∧
      FailedSymOk eps ps solver cand tokens x fp.failedSymbol ∧
      ParsedOf eps ps solver before fp.parsedSymbols ∧
      fp.pendingSymbols = (before ++ x :: after).drop (fp.parsedSymbols.length + 1) := by
  induction outs generalizing fps with
  | nil => cases h; simp at hfp
  | cons o outs ih =>
    cases h with
    | cons before x after f parsed _ fps' h1 h2 h3 =>
      rw [List.mem_cons] at hfp
      rcases hfp with rfl | hfp
      · exact ⟨before, x, after, by simp, h1, h2, rfl⟩
      · obtain ⟨b, y, a, h4, h5⟩ := ih h3 hfp
        exact ⟨b, y, a, by simp [h4], h5⟩

theorem FailedSymOk.symbol {eps : T} {ps : List (Production T)} {solver : Bool}
    {cand : T → T → List (List T)} {tokens : List (Token L T)} {x : T} {f : FailedSymbol L T}
    (h : FailedSymOk eps ps solver cand tokens x f) : f.symbolToDerive = x := by
  cases h <;> rfl

theorem ParsedOf.sublist {eps : T} {ps : List (Production T)} {solver : Bool} {xs : List T}
    {l : List (ProductionParsedSymbol L T)} (h : ParsedOf eps ps solver xs l) :
    (l.map parsedLabel).Sublist xs ∧
      (solver = false → ∀ y ∈ l.map parsedLabel, ¬ IsNonTerminal ps y) ∧
      ((∀ y ∈ xs, ¬ IsNonTerminal ps y) → l.map parsedLabel = xs) := by
  induction h with
  | nil => simp
  | terminal x xs w n l hx hn _ ih =>
    have hl : parsedLabel (ProductionParsedSymbol.ok n) = x := hn.label
    simp only [List.map_cons, hl]
    refine ⟨ih.1.cons_cons _, ?_, ?_⟩
    · intro hs y hy
      rw [List.mem_cons] at hy
      rcases hy with rfl | hy
      · exact hx
      · exact ih.2.1 hs y hy
    · intro hy
      rw [ih.2.2 (fun y h' => hy y (by simp [h']))]
  | dropped x xs l hx _ ih =>
    exact ⟨ih.1.cons _, ih.2.1, fun hy => absurd hx (hy x (by simp))⟩
  | fixed x xs fs l hx hs hf _ ih =>
    have hl : parsedLabel (L := L) (ProductionParsedSymbol.fix fs) = x := hf
    simp only [List.map_cons, hl]
    exact ⟨ih.1.cons_cons _, fun h' => by simp [hs] at h', fun hy => absurd hx (hy x (by simp))⟩

/-- Every failed production at any depth is one of the productions of the grammar, split around the
symbol that failed. -/
theorem occursIn_split {eps : T} {ps : List (Production T)} {solver : Bool}
    {cand : T → T → List (List T)} (hcand : ∀ x a out, out ∈ cand x a → (⟨x, out⟩ : Production T) ∈ ps)
    {tokens : List (Token L T)} {fp : FailedProduction L T} {f : FailedSymbol L T}
    (hocc : OccursIn fp f) {a : T}
    (hf : FailedProdsOk eps ps solver cand tokens (cand f.symbolToDerive a) f.failedProductions) :
    ∃ q ∈ ps, ∃ before x after, q.output = before ++ x :: after ∧
      fp.failedSymbol.symbolToDerive = x ∧ ParsedOf eps ps solver before fp.parsedSymbols ∧
      fp.pendingSymbols = q.output.drop (fp.parsedSymbols.length + 1) := by
  induction hocc generalizing a with
  | here f hm =>
    obtain ⟨b, x, af, h1, h2, h3, h4⟩ := mem_failedProdsOk hf hm
    exact ⟨_, hcand _ _ _ h1, b, x, af, rfl, FailedSymOk.symbol h2, h3, h4⟩
  | deep f fp' hm hocc ih =>
    obtain ⟨b, x, af, h1, h2, h3, h4⟩ := mem_failedProdsOk hf hm
    cases hfs : fp'.failedSymbol with
    | mk fps y =>
      rw [hfs] at ih h2
      cases h2 with
      | terminal _ _ _ =>
        rw [hfs] at hocc
        cases hocc <;> simp_all [FailedSymbol.failedProductions]
      | nonTerminal _ t _ _ _ h5 => exact ih (a := t.tType) h5

/-- **C26**, what holds. In every failed production of an `Err` result, at any depth: there is a
production of the grammar whose output is `before`, the failed symbol, `after`; parsed, failed and
pending symbols are as many as the output has; the parsed symbols are some of `before` in order
(without a solver: its terminals only); the pending symbols end the output; and if only terminals
precede the failed symbol, parsed symbols, failed symbol, pending symbols spell the output.
Missing of the full property: the last clause when non-terminals precede the failed symbol, which is
false (`C26_spelling_fails`). -/
theorem C26_failed_production_split_partial (h : HashOrder T) (eps init : T)
    (ps : List (Production T)) (g : Grammar T) (hg : Grammar.new h eps init ps = .ok g)
    (solver : Option (Solver σ L T)) (p : Parser σ L T) (hp : Built h g solver p)
    (tokens : List (Token L T)) (s s' : σ) (f : FailedSymbol L T)
    (hr : Parses p tokens s (.err f) s') (fp : FailedProduction L T) (hfp : OccursIn fp f) :
    ∃ q ∈ ps, ∃ before after,
      q.output = before ++ fp.failedSymbol.symbolToDerive :: after ∧
      fp.parsedSymbols.length + 1 + fp.pendingSymbols.length = q.output.length ∧
      (fp.parsedSymbols.map parsedLabel).Sublist before ∧
      (solver = none → ∀ y ∈ fp.parsedSymbols.map parsedLabel, ¬ IsNonTerminal ps y) ∧
      fp.pendingSymbols.IsSuffix q.output ∧
      ((∀ y ∈ before, ¬ IsNonTerminal ps y) →
        fp.parsedSymbols.map parsedLabel = before ∧ fp.pendingSymbols = after ∧
        fp.parsedSymbols.map parsedLabel ++ fp.failedSymbol.symbolToDerive :: fp.pendingSymbols =
          q.output) := by
  obtain ⟨P, hs⟩ := Parser.tableParser_of_built hg hp
  obtain ⟨t, _, h1, h2⟩ := err_post P.toParserOf hr
  rw [hs, ← h1] at h2
  have hcand : ∀ x a out, out ∈ candidates p.transitions x a → (⟨x, out⟩ : Production T) ∈ ps := by
    intro x a out ho
    rw [← Parser.getTokenProductions_eq] at ho
    exact P.cand x a out ho
  obtain ⟨q, hq, b, x, af, h3, rfl, h5, h6⟩ := occursIn_split hcand hfp h2
  obtain ⟨h7, h8, h9⟩ := ParsedOf.sublist h5
  have hlen := h7.length_le
  rw [List.length_map] at hlen
  refine ⟨q, hq, b, af, h3, ?_, h7, fun e => h8 (by simp [e]), ?_, ?_⟩
  · rw [h6, h3]
    simp only [List.length_drop, List.length_append, List.length_cons]
    omega
  · rw [h6]; exact List.drop_suffix _ _
  · intro hy
    have h10 := h9 hy
    have hl : fp.parsedSymbols.length = b.length := by
      rw [← h10, List.length_map]
    have h11 : fp.pendingSymbols = af := by
      rw [h6, h3, hl, List.drop_append]
      simp
    exact ⟨h10, h11, by rw [h10, h11, h3]⟩

theorem ParsedOf.eq_filter {eps : T} {ps : List (Production T)} {xs : List T}
    {l : List (ProductionParsedSymbol L T)} (h : ParsedOf eps ps false xs l) :
    l.map parsedLabel = xs.filter (fun y => decide (y ∉ ps.map (·.input))) := by
  have hiff : ∀ y, IsNonTerminal ps y ↔ y ∈ ps.map (·.input) := fun y => by
    simp [IsNonTerminal, List.mem_map]
  induction h with
  | nil => rfl
  | terminal x xs w n l hx hn _ ih =>
    have hl : parsedLabel (ProductionParsedSymbol.ok n) = x := hn.label
    rw [hiff] at hx
    rw [List.filter_cons_of_pos (by simp only [hx, not_false_eq_true, decide_true]), List.map_cons, hl, ih]
  | dropped x xs l hx _ ih =>
    rw [hiff] at hx
    rw [List.filter_cons_of_neg (by simp only [hx, not_true_eq_false, decide_false]; simp), ih]
  | fixed x xs fs l hx hs => simp at hs

/-- **C26**, exactly when it holds, without a solver. In every failed production of an `Err` result, at any
depth, the parsed symbols are the terminals before the failed symbol. Parsed, failed and pending symbols spell
the output iff before the failed symbol come terminals first and then non-terminals, the first of which, if
any, is the failed symbol once more. -/
theorem C26_spelling_iff (h : HashOrder T) (eps init : T) (ps : List (Production T))
    (g : Grammar T) (hg : Grammar.new h eps init ps = .ok g) (p : Parser σ L T) (hp : Built h g none p)
    (tokens : List (Token L T)) (s s' : σ) (f : FailedSymbol L T)
    (hr : Parses p tokens s (.err f) s') (fp : FailedProduction L T) (hfp : OccursIn fp f) :
    ∃ q ∈ ps, ∃ before after,
      q.output = before ++ fp.failedSymbol.symbolToDerive :: after ∧
      fp.parsedSymbols.map parsedLabel = before.filter (fun y => decide (y ∉ ps.map (·.input))) ∧
      fp.pendingSymbols = q.output.drop (fp.parsedSymbols.length + 1) ∧
      (fp.parsedSymbols.map parsedLabel ++ fp.failedSymbol.symbolToDerive :: fp.pendingSymbols = q.output ↔
        ∃ ts ns, before = ts ++ ns ∧ (∀ y ∈ ts, ¬ IsNonTerminal ps y) ∧ (∀ y ∈ ns, IsNonTerminal ps y) ∧
          (ns = [] ∨ ns.head? = some fp.failedSymbol.symbolToDerive)) := by
  obtain ⟨P, hs⟩ := Parser.tableParser_of_built hg hp
  obtain ⟨t, _, h1, h2⟩ := err_post P.toParserOf hr
  rw [hs, ← h1] at h2
  have hcand : ∀ x a out, out ∈ candidates p.transitions x a → (⟨x, out⟩ : Production T) ∈ ps := by
    intro x a out ho
    rw [← Parser.getTokenProductions_eq] at ho
    exact P.cand x a out ho
  have hiff : ∀ y, IsNonTerminal ps y ↔ y ∈ ps.map (·.input) := fun y => by
    simp [IsNonTerminal, List.mem_map]
  obtain ⟨q, hq, b, x, af, h3, rfl, h5, h6⟩ := occursIn_split hcand hfp h2
  have h7 := ParsedOf.eq_filter h5
  refine ⟨q, hq, b, af, h3, h7, h6, ?_⟩
  have hlen : fp.parsedSymbols.length = (b.filter (fun y => decide (y ∉ ps.map (·.input)))).length := by
    rw [← h7, List.length_map]
  rw [h7, h6, hlen, h3]
  constructor
  · intro he
    have hle : (b.filter (fun y => decide (y ∉ ps.map (·.input)))).length ≤ b.length :=
      List.length_filter_le _ _
    generalize hF : b.filter (fun y => decide (y ∉ ps.map (·.input))) = F at he hle
    obtain ⟨ns, rfl⟩ : F <+: b :=
      List.prefix_of_prefix_length_le (l₃ := b ++ fp.failedSymbol.symbolToDerive :: af)
        ⟨_, he⟩ ⟨_, rfl⟩ hle
    have hFt : ∀ y ∈ F, ¬ IsNonTerminal ps y := by
      intro y hy
      rw [← hF] at hy
      have := (List.mem_filter.1 hy).2
      rw [hiff]
      simpa using this
    refine ⟨F, ns, rfl, hFt, ?_, ?_⟩
    · rw [List.filter_append, List.filter_eq_self.2
        (by intro y hy; have := hFt y hy; rw [hiff] at this; exact decide_eq_true this)] at hF
      have hn : ns.filter (fun y => decide (y ∉ ps.map (·.input))) = [] := by simpa using hF
      intro y hy
      rw [hiff]
      by_contra hc
      have : y ∈ ns.filter (fun y => decide (y ∉ ps.map (·.input))) :=
        List.mem_filter.2 ⟨hy, decide_eq_true hc⟩
      rw [hn] at this
      simp at this
    · cases ns with
      | nil => exact .inl rfl
      | cons y ns =>
        simp only [List.append_assoc, List.append_cancel_left_eq, List.cons_append, List.cons.injEq] at he
        exact .inr (by simp [he.1])
  · rintro ⟨ts, ns, rfl, hts, hns, hh⟩
    have hF : (ts ++ ns).filter (fun y => decide (y ∉ ps.map (·.input))) = ts := by
      rw [List.filter_append, List.filter_eq_self.2
        (by intro y hy; have := hts y hy; rw [hiff] at this; exact decide_eq_true this),
        List.filter_eq_nil_iff.2
        (by intro y hy; have := hns y hy; rw [hiff] at this; simp only [this]; simp)]
      simp
    rw [hF]
    cases ns with
    | nil => simp [List.drop_append]
    | cons y ns =>
      rcases hh with hh | hh
      · simp at hh
      · simp only [List.head?_cons, Option.some.injEq] at hh
        subst hh
        simp [List.drop_append]

/-- `S → A b c`, `A → a` on the input `a x`: the failed symbol is `b`, yet the only parsed symbol `A`
is missing and the pending symbols begin with `b` itself. -/
theorem C26_spelling_fails :
    ∃ g p f, Grammar.new (HashOrder.id Nat) 0 1 [⟨1, [2, 11, 12]⟩, ⟨2, [10]⟩] = .ok g ∧
      Built (σ := Unit) (L := Unit) (HashOrder.id Nat) g none p ∧
      Parses p [⟨none, 10⟩, ⟨none, 13⟩] () (.err f) () ∧
      ∃ fp, OccursIn fp f ∧ fp.parsedSymbols = [] ∧ fp.failedSymbol.symbolToDerive = 11 ∧
        fp.pendingSymbols = [11, 12] := by
  refine ⟨_, _, _, rfl, Parser.built_of_eval (n := 10) rfl, Parser.parse_returns (n := 20) rfl, ?_⟩
  exact ⟨_, .here _ (by exact List.mem_singleton.2 rfl), rfl, rfl, rfl⟩

/-- The hypotheses of C25 and C26 are met two levels deep, with the last clause of C26 in force:
`x + $`. -/
example : ∃ g p f, Grammar.new (HashOrder.id Nat) 0 1 [⟨1, [10, 2]⟩, ⟨2, [11, 12]⟩] = .ok g ∧
      Built (σ := Unit) (L := Unit) (HashOrder.id Nat) g none p ∧
      Parses p [⟨none, 10⟩, ⟨none, 11⟩, ⟨none, 13⟩] () (.err f) () ∧
      ∃ fp, OccursIn fp f ∧ fp.parsedSymbols.map parsedLabel = [11] ∧
        fp.failedSymbol.symbolToDerive = 12 ∧ fp.pendingSymbols = [] := by
  refine ⟨_, _, _, rfl, Parser.built_of_eval (n := 10) rfl, Parser.parse_returns (n := 20) rfl, ?_⟩
  exact ⟨_, .deep _ _ (by exact List.mem_singleton.2 rfl)
    (.here _ (by exact List.mem_singleton.2 rfl)), rfl, rfl, rfl⟩

/-! ## Fix results -/

theorem fix_post {eps init : T} {ps : List (Production T)} {p : Parser σ L T}
    (P : Parser.ParserOf eps init ps p) {tokens : List (Token L T)} {s s' : σ}
    {f : FixedSymbol L T} (hr : Parses p tokens s (.fix f) s') :
    p.syntaxErrorSolver.isSome = true ∧ f.symbolToDerive = init ∧
      FixSymOk eps ps p.syntaxErrorSolver tokens init f := by
  obtain ⟨n, hn⟩ := Parser.parses_at hr
  obtain ⟨t, ht, r', h1, _, h2⟩ := Parser.parse_post P hn
  cases r' with
  | ok st => simp [Parser.toParseResult] at h1
  | err f' => simp [Parser.toParseResult] at h1
  | fix st =>
    simp only [Parser.toParseResult, ParseResult.fix.injEq] at h1
    subst h1
    exact ⟨h2.2.1, h2.2.2.1, h2.1⟩

/-- **C27.** Without a solver the result is never `Fix`, whatever FIRST and FOLLOW sets are used. -/
theorem C27_no_fix_without_solver (h : HashOrder T) (eps init : T) (ps : List (Production T))
    (g : Grammar T) (hg : Grammar.new h eps init ps = .ok g) (p : Parser σ L T)
    (hp : Built h g none p ∨
      ∃ ff, Parser.fromGrammarAndFirstFollowSymbols h g ff = .ok p)
    (tokens : List (Token L T)) (s s' : σ) (f : FixedSymbol L T) :
    ¬ Parses p tokens s (.fix f) s' := by
  intro hr
  rcases hp with hp | ⟨ff, hp⟩
  · obtain ⟨P, hs⟩ := Parser.tableParser_of_built hg hp
    have := (fix_post P.toParserOf hr).1
    simp [hs] at this
  · have := (fix_post (Parser.parserOf_of_from hg hp) hr).1
    rw [(Parser.from_eq_ok hp).2.1] at this
    simp at this

/-- **C31.** A `Fix` result is for the initial symbol, there was a solver, and the fixed production
either was returned by the solver for these tokens or has one part per symbol of the output of a
production of the initial symbol, each part a parse tree of its symbol over some of the tokens or a
fixed symbol of the same kind, at least one of them fixed, none of them a gap. -/
theorem C31_fix_structure (h : HashOrder T) (eps init : T) (ps : List (Production T))
    (g : Grammar T) (hg : Grammar.new h eps init ps = .ok g) (solver : Option (Solver σ L T))
    (p : Parser σ L T) (hp : Built h g solver p) (tokens : List (Token L T)) (s s' : σ)
    (f : FixedSymbol L T) (hr : Parses p tokens s (.fix f) s') :
    solver.isSome = true ∧ f.symbolToDerive = init ∧
      ((∃ pos r, SolverReturned solver tokens pos r ∧ f.fixedProduction = r.production) ∨
       (∃ q ∈ ps, q.input = init ∧
        FixPartsOk eps ps solver tokens q.output f.fixedProduction.fixedParts ∧
        f.fixedProduction.fixedParts.length = q.output.length ∧
        (∃ fs, FixedProductionPart.fixed fs ∈ f.fixedProduction.fixedParts) ∧
        (∀ gap, FixedProductionPart.gap gap ∉ f.fixedProduction.fixedParts))) := by
  obtain ⟨P, hs⟩ := Parser.tableParser_of_built hg hp
  obtain ⟨h1, h2, h3⟩ := fix_post P.toParserOf hr
  rw [hs] at h1 h3
  refine ⟨h1, h2, ?_⟩
  have hparts : ∀ xs (parts : List (FixedProductionPart L T)),
      FixPartsOk eps ps solver tokens xs parts →
      parts.length = xs.length ∧ ∀ gap, FixedProductionPart.gap gap ∉ parts := by
    intro xs
    induction xs with
    | nil => intro parts h'; cases h'; simp
    | cons x xs ih =>
      intro parts h'
      cases h' with
      | ok _ _ w n parts' _ _ h4 => simpa using ih _ h4
      | fixed _ _ fs parts' _ h4 => simpa using ih _ h4
  cases h3 with
  | solver _ pos r h4 => exact .inl ⟨pos, r, h4, rfl⟩
  | built q parts hq h4 h5 =>
    exact .inr ⟨q, hq, rfl, h4, (hparts _ _ h4).1, h5, (hparts _ _ h4).2⟩

/-- A solver that skips one token and fills in the gap. -/
def skipSolver : Solver Unit Unit Nat where
  fixFailedProduction _ pos _ := pure (some ⟨pos + 1, .mk [.gap ⟨[()], []⟩]⟩)
  fixFailedProductions _ pos _ := pure (some ⟨pos + 1, .mk []⟩)

/-- The hypotheses of C31 are met, with a production made by the parser: `S → a A b`, `A → c c` on
`a c b`: the solver fixes `A`, the other parts are parsed. -/
example : ∃ g p f, Grammar.new (HashOrder.id Nat) 0 1 [⟨1, [10, 2, 11]⟩, ⟨2, [12, 12]⟩] = .ok g ∧
      Built (HashOrder.id Nat) g (some skipSolver) p ∧
      Parses p [⟨none, 10⟩, ⟨none, 12⟩, ⟨none, 11⟩] () (.fix f) () ∧
      f.fixedProduction.fixedParts =
        [.ok (.mk [] ⟨none, 10⟩), .fixed (.mk (.mk [.gap ⟨[()], []⟩]) 2),
         .ok (.mk [] ⟨none, 11⟩)] :=
  ⟨_, _, _, rfl, Parser.built_of_eval_solver (n := 10) rfl, Parser.parse_returns (n := 20) rfl, rfl⟩

/-! ## Unexpected first tokens; equality of tokens -/

/-- **C34.** If the initial symbol has no production, or the first token's type is not a terminal of
the grammar or is `eps`, or no production of the initial symbol is listed for it, the result without
a solver is `Err` of the initial symbol without failed productions. -/
theorem C34_unexpected_first_token (h : HashOrder T) (eps init : T) (ps : List (Production T))
    (g : Grammar T) (hg : Grammar.new h eps init ps = .ok g) (p : Parser σ L T)
    (hp : Built h g none p) (t : Token L T) (ts : List (Token L T)) (s : σ)
    (ht : ¬ IsNonTerminal ps init ∨ ¬ IsTerminal ps t.tType ∨ t.tType = eps ∨
      p.transitions.getProductions init t.tType = some []) :
    Parses p (t :: ts) s (.err (.mk [] init)) s := by
  obtain ⟨P, hs⟩ := Parser.tableParser_of_built hg hp
  have hnil : p.getTokenProductions init t.tType = [] := by
    rcases ht with ht | ht | ht | ht
    · rw [List.eq_nil_iff_forall_not_mem]
      intro o ho
      exact ht ⟨_, ((P.cell _ _ _).1 ho).1, rfl⟩
    · rw [List.eq_nil_iff_forall_not_mem]
      intro o ho
      exact ht ((P.cell _ _ _).1 ho).2.isTerminal.1
    · rw [List.eq_nil_iff_forall_not_mem]
      intro o ho
      exact ((P.cell _ _ _).1 ho).2.isTerminal.2 ht
    · rw [Parser.getTokenProductions_eq]
      simp [candidates, ht]
  apply Parser.parse_returns (n := 1)
  simp only [Parser.parseFromTokens, List.length_cons, Nat.add_eq_zero_iff, Nat.one_ne_zero, and_false,
    if_false, List.getElem?_cons_zero, P.grammar.init_eq, hnil]
  simp [Parser.innerParse, Parser.tryParseProductionsLoop, M.bind_apply, Parser.tryFixProductions, hs,
    Parser.fixOptionToResult, Parser.toParseResult]

/-- Each case of C34 occurs: an initial symbol without production; an unknown token type; `eps`; an
empty cell. -/
example : ∃ g g' p p', Grammar.new (HashOrder.id Nat) 0 99 exprPs = .ok g ∧
    Grammar.new (HashOrder.id Nat) 0 1 exprPs = .ok g' ∧
    Built (σ := Unit) (L := Unit) (HashOrder.id Nat) g none p ∧
    Built (σ := Unit) (L := Unit) (HashOrder.id Nat) g' none p' ∧
    Parses p [⟨none, 15⟩] () (.err (.mk [] 99)) () ∧ Parses p' [⟨none, 77⟩] () (.err (.mk [] 1)) () ∧
    Parses p' [⟨none, 0⟩] () (.err (.mk [] 1)) () ∧
    p'.transitions.getProductions 1 14 = some [] ∧ Parses p' [⟨none, 14⟩] () (.err (.mk [] 1)) () :=
  ⟨_, _, _, _, rfl, rfl, Parser.built_of_eval (n := 10) rfl, Parser.built_of_eval (n := 10) rfl,
    Parser.parse_returns (n := 20) rfl, Parser.parse_returns (n := 20) rfl,
    Parser.parse_returns (n := 20) rfl, rfl, Parser.parse_returns (n := 20) rfl⟩

/-- **C35.** Token equality is equality of types, an equivalence; `ne` is its negation; a clone is
the same token. -/
theorem C35_token_eq (a b c : Token L T) :
    (a.eq b = true ↔ a.tType = b.tType) ∧ (a.ne b = !(a.eq b)) ∧ a.eq a = true ∧
      (a.eq b = true → b.eq a = true) ∧ (a.eq b = true → b.eq c = true → a.eq c = true) ∧
      a.eq a.clone = true ∧ a.clone = a ∧
      (∀ l, a.eq ⟨l, a.tType⟩ = true) := by
  unfold Token.eq Token.ne Token.clone
  simp only [decide_eq_true_eq, ne_eq, decide_not, true_and, and_self, implies_true, and_true]
  exact ⟨Eq.symm, fun h1 h2 => h1.trans h2⟩

/-- Equal tokens with different lexemes, and different tokens with equal lexemes. -/
example : (Token.mk (some "x") 1).eq ⟨some "y", 1⟩ = true ∧
    (Token.mk (some "x") 1).eq ⟨some "x", 2⟩ = false := ⟨rfl, rfl⟩

end Verif.Props
