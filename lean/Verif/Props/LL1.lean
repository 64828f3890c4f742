import Verif.Proof.LL1
import Verif.Props.Choice
import Verif.Props.Solver
import Verif.Props.Termination

/-!
# Properties C21, C22, C23, C37: completeness
-/

set_option linter.unusedSectionVars false

namespace Verif.Props

open Verif.Spec Verif.Examples

variable {σ L T : Type} [DecidableEq T]

/-- **C21.** Let every table cell hold at most one production and no production have two equal
adjacent non-terminals. If the input begins with tokens `w` that have a parse tree `n`, and either the
next token can follow the initial symbol or `n` does not end with an empty non-terminal, then
`parse_from_tokens` returns `Ok` with exactly the tree `n`. -/
theorem C21_ll1_complete (h : HashOrder T) (eps init : T) (ps : List (Production T))
    (g : Grammar T) (hg : Grammar.new h eps init ps = .ok g) (p : Parser σ L T)
    (hp : Built h g none p) (hcf : ConflictFree p.transitions) (hadj : NoAdjacentRepeat ps)
    (hinit : IsNonTerminal ps init) (w rest : List (Token L T)) (n : Node L T)
    (hn : IsTree eps ps init w n)
    (hrest : (∃ t rest', rest = t :: rest' ∧ CanFollow eps ps init t.tType) ∨ ¬ EndsEmpty eps ps n)
    (s : σ) : Parses p (w ++ rest) s (.ok ⟨n⟩) s := by
  obtain ⟨P, hs⟩ := Parser.tableParser_of_built hg hp
  exact Parser.parses_of_tree P.toParserOf hs
      (P.covers fun x a hx hc => followRule_complete hadj hx hc)
    (Parser.conflictFree_length hcf) hinit hn hrest s

/-- **C21**, in particular: every sentence of an end-marked grammar is accepted, with its parse tree,
whatever comes behind it. -/
theorem C21_ll1_complete_end_marked (h : HashOrder T) (eps init : T) (ps : List (Production T))
    (g : Grammar T) (hg : Grammar.new h eps init ps = .ok g) (p : Parser σ L T)
    (hp : Built h g none p) (hcf : ConflictFree p.transitions) (hadj : NoAdjacentRepeat ps) (e : T)
    (hem : EndMarked eps init e ps) (w rest : List (Token L T))
    (hw : Sentence eps init ps (w.map (·.tType))) (s : σ) :
    ∃ n, IsTree eps ps init w n ∧ Parses p (w ++ rest) s (.ok ⟨n⟩) s := by
  obtain ⟨n, hn⟩ := Parser.tree_of_sentence hw
  have hwf := (Grammar.grammarOf_of_new hg).wf
  have hnt : IsNonTerminal ps init := by
    by_contra hc
    have := Derives.terminal_eq hc hw.1
    have ht := (hw.2 init (by rw [this]; simp)).1.1
    obtain ⟨q, hq, hq'⟩ := ht
    exact hem.initial_once q hq hq'
  exact ⟨n, hn, C21_ll1_complete h eps init ps g hg p hp hcf hadj hnt w rest n hn
    (.inr (Parser.not_endsEmpty_of_endMarked hwf hem hnt hn)) s⟩

/-- **C22.** For an accepted end-marked grammar without left recursion, with at most one production
per cell and no two equal adjacent non-terminals, and on every input whose last token is the only end
marker: `parse_from_tokens` returns `Ok`, with a parse tree of the whole input, if the token types are
a sentence of the grammar, and `Err` otherwise. -/
theorem C22_decides (h : HashOrder T) (eps init : T) (ps : List (Production T))
    (g : Grammar T) (hg : Grammar.new h eps init ps = .ok g) (p : Parser σ L T)
    (hp : Built h g none p) (hcf : ConflictFree p.transitions) (hadj : NoAdjacentRepeat ps)
    (hnlr : NotLeftRecursive eps ps) (e : T) (hem : EndMarked eps init e ps)
    (tokens : List (Token L T)) (hin : EndsWith e tokens) (s : σ) :
    (Sentence eps init ps (tokens.map (·.tType)) →
      ∃ tree, Parses p tokens s (.ok tree) s ∧ IsTree eps ps init tokens tree.root) ∧
    (¬ Sentence eps init ps (tokens.map (·.tType)) → ∃ f s', Parses p tokens s (.err f) s') := by
  constructor
  · intro hs
    obtain ⟨n, h1, h2⟩ := C21_ll1_complete_end_marked h eps init ps g hg p hp hcf hadj e hem tokens []
      hs s
    rw [List.append_nil] at h2
    exact ⟨⟨n⟩, h2, h1⟩
  · intro hs
    rcases C19_terminates h eps init ps g hg none p hp hnlr tokens (by intro sv h; simp at h)
        (by rintro pos r ⟨_, sv, _, _, h, _⟩; simp at h) s with ⟨r, s', hr⟩ | hpan
    · cases r with
      | err f => exact ⟨f, s', hr⟩
      | fix f => exact absurd hr (C27_no_fix_without_solver h eps init ps g hg p (.inl hp) tokens s s' f)
      | ok tree =>
        exfalso
        apply hs
        obtain ⟨_, htree⟩ := C17_whole_input_partial h eps init ps g hg none p hp e hem tokens hin s s'
          tree hr
        obtain ⟨P, _⟩ := Parser.tableParser_of_built hg hp
        obtain ⟨k, _, hnt, _⟩ := ok_tree P.toParserOf hr
        refine ⟨htree.derives P.grammar.wf ?_, ?_⟩
        · rintro rfl
          obtain ⟨q, hq, hqe⟩ := hnt
          exact (P.grammar.wf q hq).1 hqe
        · intro a ha
          obtain ⟨t, ht, rfl⟩ := List.mem_map.1 ha
          exact Parser.IsTree.terminals htree (.inl hnt) t ht
    · exact absurd hpan (C18_no_panic_partial h eps init ps g hg p hp e hem tokens hin s)

/-- **C37.** If every table cell holds at most one production and no production has two equal adjacent
non-terminals, any two parse trees of the initial symbol of an end-marked grammar over the same tokens
are equal. -/
theorem C37_unambiguous (h : HashOrder T) (eps init : T) (ps : List (Production T))
    (g : Grammar T) (hg : Grammar.new h eps init ps = .ok g) (p : Parser σ L T)
    (hp : Built h g none p) (hcf : ConflictFree p.transitions) (hadj : NoAdjacentRepeat ps) (e : T)
    (hem : EndMarked eps init e ps) (s : σ) (w : List (Token L T)) (n n' : Node L T)
    (hn : IsTree eps ps init w n) (hn' : IsTree eps ps init w n') : n = n' := by
  obtain ⟨P, hs⟩ := Parser.tableParser_of_built hg hp
  have hwf := P.grammar.wf
  have hends : ∀ n, IsTree eps ps init w n → IsNonTerminal ps init → ¬ EndsEmpty eps ps n :=
    fun n hn hnt => Parser.not_endsEmpty_of_endMarked hwf hem hnt hn
  by_cases hnt : IsNonTerminal ps init
  · exact Parser.tree_unique (post := []) P.toParserOf hs s
      (P.covers fun x a hx hc => followRule_complete hadj hx hc)
      (Parser.conflictFree_length hcf) hn hn' (.inr (hends n hn hnt)) (.inr (hends n' hn' hnt))
  · have hleaf : ∀ m, IsTree eps ps init w m → ¬ EndsEmpty eps ps m := by
      intro m hm hc
      generalize hx : init = x at hm
      cases hm with
      | leaf t h1 =>
        generalize hn : Node.mk [] t = nd at hc
        cases hc with
        | here _ h3 => rw [← hn] at h3; exact h1 h3
        | last a c b t' => simp at hn
      | eps =>
        generalize hn : Node.mk [] ⟨none, eps⟩ = nd at hc
        cases hc with
        | here _ h3 => rw [← hn] at h3; exact hnt (hx ▸ h3)
        | last a c b t' => simp at hn
      | node q _ _ hq => exact absurd ⟨q, hq, hx.symm⟩ hnt
    exact Parser.tree_unique (post := []) P.toParserOf hs s
      (P.covers fun x a hx hc => followRule_complete hadj hx hc)
      (Parser.conflictFree_length hcf) hn hn' (.inr (hleaf n hn)) (.inr (hleaf n' hn'))

/-- **C37**, for every symbol of the grammar: if some terminal can follow the symbol `x`, any two parse
trees of `x` over the same tokens are equal, end marker or not. -/
theorem C37_unambiguous_followed (h : HashOrder T) (eps init : T) (ps : List (Production T))
    (g : Grammar T) (hg : Grammar.new h eps init ps = .ok g) (p : Parser σ L T)
    (hp : Built h g none p) (hcf : ConflictFree p.transitions) (hadj : NoAdjacentRepeat ps)
    (s : σ) (x a : T) (hfollow : CanFollow eps ps x a) (w : List (Token L T)) (n n' : Node L T)
    (hn : IsTree eps ps x w n) (hn' : IsTree eps ps x w n') : n = n' := by
  obtain ⟨P, hs⟩ := Parser.tableParser_of_built hg hp
  exact Parser.tree_unique (post := [⟨none, a⟩]) P.toParserOf hs s
      (P.covers fun x a hx hc => followRule_complete hadj hx hc) (Parser.conflictFree_length hcf) hn hn'
    (.inl ⟨_, _, rfl, hfollow⟩) (.inl ⟨_, _, rfl, hfollow⟩)

/-! ## The hypotheses can be met -/

/-- It is enough to look at the cells of symbols that occur. -/
theorem conflictFree_of_check {h : HashOrder T} {eps init : T} {ps : List (Production T)}
    {g : Grammar T} (hg : Grammar.new h eps init ps = .ok g) {solver : Option (Solver σ L T)}
    {p : Parser σ L T} (hp : Built h g solver p)
    (hall : ∀ x ∈ ps.map (·.input), ∀ a ∈ ps.flatMap (·.output),
      ((p.transitions.getProductions x a).getD []).length ≤ 1) : ConflictFree p.transitions := by
  obtain ⟨ff, hff, e⟩ := (Parser.built_iff hg).1 hp
  obtain ⟨t, h1, h2, _⟩ := C12_table_cells h eps init ps g hg ff hff
  rw [(Parser.from_eq_ok e).2.2] at h1
  cases h1
  intro x a l hl
  obtain ⟨⟨q, hq, hqx⟩, ⟨q', hq', hqa⟩, _⟩ := (h2 x a).1 (by simp [hl])
  have := hall x (List.mem_map.2 ⟨q, hq, hqx⟩) a (List.mem_flatMap.2 ⟨q', hq', hqa⟩)
  rw [hl] at this
  exact this

theorem exprPs_noAdjacentRepeat : NoAdjacentRepeat exprPs := by
  intro p hp u x v he hx
  have : ∀ p ∈ exprPs, ∀ i < p.output.length, p.output[i]? ≠ p.output[i + 1]? := by decide
  refine this p hp u.length (by rw [he]; simp) ?_
  rw [he]
  simp

/-- The expression grammar meets the hypotheses on grammars and parsers of C21, C22 and C37, with
`id * ( id ) $` a sentence that has a tree, and `id id $` not a sentence. -/
example : ∃ g p tree f, Grammar.new (HashOrder.id Nat) 0 1 exprPs = .ok g ∧
    Built (σ := Unit) (L := Unit) (HashOrder.id Nat) g none p ∧ ConflictFree p.transitions ∧
    NoAdjacentRepeat exprPs ∧ NotLeftRecursive 0 exprPs ∧ EndMarked 0 1 16 exprPs ∧
    Parses p [⟨none, 15⟩, ⟨none, 12⟩, ⟨none, 13⟩, ⟨none, 15⟩, ⟨none, 14⟩, ⟨none, 16⟩] () (.ok tree) () ∧
    IsTree 0 exprPs 1
      [⟨none, 15⟩, ⟨none, 12⟩, ⟨none, 13⟩, ⟨none, 15⟩, ⟨none, 14⟩, ⟨none, 16⟩] tree.root ∧
    Parses p [⟨none, 15⟩, ⟨none, 15⟩, ⟨none, 16⟩] () (.err f) () ∧
    ¬ Sentence 0 1 exprPs [15, 15, 16] := by
  obtain ⟨g, p, tree, f, hg, hp, hr, hf⟩ : ∃ g p tree f,
      Grammar.new (HashOrder.id Nat) 0 1 exprPs = .ok g ∧
      Built (σ := Unit) (L := Unit) (HashOrder.id Nat) g none p ∧
      Parses p [⟨none, 15⟩, ⟨none, 12⟩, ⟨none, 13⟩, ⟨none, 15⟩, ⟨none, 14⟩, ⟨none, 16⟩] () (.ok tree) () ∧
      Parses p [⟨none, 15⟩, ⟨none, 15⟩, ⟨none, 16⟩] () (.err f) () :=
    ⟨_, _, _, _, rfl, Parser.built_of_eval (n := 10) rfl, Parser.parse_returns (n := 30) rfl,
      Parser.parse_returns (n := 30) rfl⟩
  have hcf := exprPs_conflictFree p _ g hg none hp
  refine ⟨g, p, tree, f, hg, hp, hcf, exprPs_noAdjacentRepeat, exprPs_notLeftRecursive,
    exprPs_endMarked, hr, ?_, hf, ?_⟩
  · exact (C17_whole_input_partial _ _ _ _ g hg none p hp 16 exprPs_endMarked _
      ⟨[⟨none, 15⟩, ⟨none, 12⟩, ⟨none, 13⟩, ⟨none, 15⟩, ⟨none, 14⟩], _, rfl, rfl, by simp⟩ _ _ _ hr).2
  · intro hs
    obtain ⟨t, ht, _⟩ := (C22_decides _ _ _ _ g hg p hp hcf exprPs_noAdjacentRepeat
      exprPs_notLeftRecursive 16 exprPs_endMarked [⟨none, 15⟩, ⟨none, 15⟩, ⟨none, 16⟩]
      ⟨[⟨none, 15⟩, ⟨none, 15⟩], _, rfl, rfl, by simp⟩ ()).1 hs
    have := (Parser.Parses.det ht hf).1
    simp at this

/-! ## Completeness of backtracking -/

/-- **C23**, for tables without conflicts and grammars without two equal adjacent non-terminals: a
sentence of an end-marked grammar is accepted. Missing: the other grammars, for which the claim is
false of the pinned code (`C23_backtracking_incomplete`, `C23_ll1_grammar_incomplete`). -/
theorem C23_complete_partial (h : HashOrder T) (eps init : T) (ps : List (Production T))
    (g : Grammar T) (hg : Grammar.new h eps init ps = .ok g) (p : Parser σ L T)
    (hp : Built h g none p) (hcf : ConflictFree p.transitions) (hadj : NoAdjacentRepeat ps) (e : T)
    (hem : EndMarked eps init e ps) (tokens : List (Token L T))
    (hs : Sentence eps init ps (tokens.map (·.tType))) (s : σ) :
    ∃ tree, Parses p tokens s (.ok tree) s := by
  obtain ⟨n, _, h2⟩ := C21_ll1_complete_end_marked h eps init ps g hg p hp hcf hadj e hem tokens [] hs s
  rw [List.append_nil] at h2
  exact ⟨_, h2⟩

/-- `S → A d $`, `A → B`, `B → b | b c`, with `S = 1, A = 2, B = 3, b = 10, c = 11, d = 12, $ = 13`. -/
def nestedPs : List (Production Nat) := [⟨1, [2, 12, 13]⟩, ⟨2, [3]⟩, ⟨3, [10]⟩, ⟨3, [10, 11]⟩]

/-- **C23 is false of the pinned code**: `b c d $` is a sentence of the end-marked grammar
`S → A d $`, `A → B`, `B → b | b c`, which is not left-recursive, but the parser returns `Err`: the
second alternative of `B` is not tried any more once `A` has been parsed. -/
theorem C23_backtracking_incomplete : ∃ g p f, Grammar.new (HashOrder.id Nat) 0 1 nestedPs = .ok g ∧
    Built (σ := Unit) (L := Unit) (HashOrder.id Nat) g none p ∧
    NotLeftRecursive 0 nestedPs ∧ EndMarked 0 1 13 nestedPs ∧
    Sentence 0 1 nestedPs [10, 11, 12, 13] ∧
    Parses p [⟨none, 10⟩, ⟨none, 11⟩, ⟨none, 12⟩, ⟨none, 13⟩] () (.err f) () := by
  refine ⟨_, _, _, rfl, Parser.built_of_eval (n := 10) rfl, ?_, ?_, ⟨?_, ?_⟩,
    Parser.parse_returns (n := 30) rfl⟩
  · exact notLeftRecursive_of_rank (fun _ => false)
      (fun x => if x = 1 then 3 else if x = 2 then 2 else if x = 3 then 1 else 0) (by decide)
  · refine ⟨by decide, by unfold IsNonTerminal; decide, by decide, ?_, by decide⟩
    intro p hp hi
    refine ⟨[2, 12], ?_, by decide⟩
    revert p
    decide
  · refine .step (Step.mk [] [] ⟨1, [2, 12, 13]⟩ (by decide)) ?_
    refine .step (Step.mk [] [12, 13] ⟨2, [3]⟩ (by decide)) ?_
    refine .step (Step.mk [] [12, 13] ⟨3, [10, 11]⟩ (by decide)) (.refl _)
  · unfold IsTerminal IsNonTerminal
    decide

/-- **C23 is false of the pinned code even for a textbook LL(1) grammar**: `a a $` is a sentence of
`S → X X $`, `X → a Z`, `Z → b | ε`, all cells hold at most one production, but the parser returns
`Err`, because FOLLOW(`Z`) lacks `a`. -/
theorem C23_ll1_grammar_incomplete : ∃ g p f, Grammar.new (HashOrder.id Nat) 0 1 twicePs = .ok g ∧
    Built (σ := Unit) (L := Unit) (HashOrder.id Nat) g none p ∧
    NotLeftRecursive 0 twicePs ∧ EndMarked 0 1 12 twicePs ∧ ConflictFree p.transitions ∧
    Sentence 0 1 twicePs [10, 10, 12] ∧
    Parses p [⟨none, 10⟩, ⟨none, 10⟩, ⟨none, 12⟩] () (.err f) () := by
  obtain ⟨g, p, f, hg, hp, hr, hall⟩ : ∃ g p f, Grammar.new (HashOrder.id Nat) 0 1 twicePs = .ok g ∧
      Built (σ := Unit) (L := Unit) (HashOrder.id Nat) g none p ∧
      Parses p [⟨none, 10⟩, ⟨none, 10⟩, ⟨none, 12⟩] () (.err f) () ∧
      ∀ x ∈ twicePs.map (·.input), ∀ a ∈ twicePs.flatMap (·.output),
        ((p.transitions.getProductions x a).getD []).length ≤ 1 :=
    ⟨_, _, _, rfl, Parser.built_of_eval (n := 10) rfl, Parser.parse_returns (n := 30) rfl, by decide⟩
  refine ⟨g, p, f, hg, hp, ?_, ?_, conflictFree_of_check hg hp hall, ⟨?_, ?_⟩, hr⟩
  · exact notLeftRecursive_of_rank (fun x => x == 3)
      (fun x => if x = 1 then 2 else if x = 2 then 1 else if x = 3 then 1 else 0) (by decide)
  · refine ⟨by decide, by unfold IsNonTerminal; decide, by decide, ?_, by decide⟩
    intro p hp hi
    refine ⟨[2, 2], ?_, by decide⟩
    revert p
    decide
  · refine .step (Step.mk [] [] ⟨1, [2, 2, 12]⟩ (by decide)) ?_
    refine .step (Step.mk [] [2, 12] ⟨2, [10, 3]⟩ (by decide)) ?_
    refine .step (Step.mk [10] [2, 12] ⟨3, [0]⟩ (by decide)) ?_
    refine .step (Step.mk [10] [12] ⟨2, [10, 3]⟩ (by decide)) ?_
    exact .step (Step.mk [10, 10] [12] ⟨3, [0]⟩ (by decide)) (.refl _)
  · unfold IsTerminal IsNonTerminal
    decide

end Verif.Props
