import Verif.Proof.Congr
import Verif.Proof.LL1Unique
import Verif.Props.Supplied

/-!
# Property C68: all parsers for an unambiguous grammar agree
-/

set_option linter.unusedSectionVars false

namespace Verif.Props

open Verif.Spec Verif.Examples

variable {σ σ' L T : Type} [DecidableEq T]

/-- The initial symbol has at most one parse tree over each token sequence. -/
def Unambiguous (L : Type) {T : Type} (eps init : T) (ps : List (Production T)) : Prop :=
  ∀ (w : List (Token L T)) (n n' : Node L T), IsTree eps ps init w n → IsTree eps ps init w n' → n = n'

/-- Any parser for the grammar: with computed sets, with or without solver, or with sets of the user. -/
def AnyParser (h : HashOrder T) (g : Grammar T) (p : Parser σ L T) : Prop :=
  (∃ solver, Built h g solver p) ∨ ∃ ff, Parser.fromGrammarAndFirstFollowSymbols h g ff = .ok p

theorem AnyParser.parserOf {h : HashOrder T} {eps init : T} {ps : List (Production T)} {g : Grammar T}
    (hg : Grammar.new h eps init ps = .ok g) {p : Parser σ L T} (hp : AnyParser h g p) :
    Parser.ParserOf eps init ps p := by
  rcases hp with ⟨solver, hp⟩ | ⟨ff, hp⟩
  · exact (Parser.tableParser_of_built hg hp).1.toParserOf
  · exact Parser.parserOf_of_from hg hp

theorem isTree_congr {eps : T} {ps ps' : List (Production T)} (h : ∀ q, q ∈ ps ↔ q ∈ ps') {x : T}
    {w : List (Token L T)} {n : Node L T} (ht : IsTree eps ps x w n) : IsTree eps ps' x w n := by
  refine IsTree.rec (eps := eps) (ps := ps) (motive_1 := fun x w n _ => IsTree eps ps' x w n)
    (motive_2 := fun xs w ns _ => IsForest eps ps' xs w ns) ?_ ?_ ?_ ?_ ?_ ht
  · intro t hnt hne
    exact .leaf t (fun hc => hnt ((isNonTerminal_congr h _).2 hc)) hne
  · exact .eps
  · intro q w ns hq _ ih
    exact .node q w ns ((h q).1 hq) ih
  · exact .nil
  · intro x xs w w' n ns _ _ ih1 ih2
    exact .cons _ _ _ _ _ _ ih1 ih2

theorem AnyParser.whole {h : HashOrder T} {eps init : T} {ps : List (Production T)} {g : Grammar T}
    (hg : Grammar.new h eps init ps = .ok g) {p : Parser σ L T} (hp : AnyParser h g p) {e : T}
    (hem : EndMarked eps init e ps) {tokens : List (Token L T)} (hin : EndsWith e tokens) {s s' : σ}
    {tree : Tree L T} (hr : Parses p tokens s (.ok tree) s') : IsTree eps ps init tokens tree.root := by
  have P := hp.parserOf hg
  obtain ⟨k, _, hnt, htree, _⟩ := ok_tree P hr
  obtain ⟨w', t, hw', ht⟩ := Parser.tree_ends P.grammar.wf hem hnt htree
  rwa [Parser.take_of_ends hin hw' ht] at htree

/-- **C68.** Let an end-marked grammar be unambiguous. Then all its parsers return the same tree: two parsers
for the same set of productions, in any order and with any hash order, with computed FIRST and FOLLOW sets or
sets of the user, with any solver or none, that both return `Ok` on an input whose last token is the only end
marker, return equal trees. -/
theorem C68_unambiguous_same_tree (h h' : HashOrder T) (eps init : T) (ps ps' : List (Production T))
    (hps : ∀ q, q ∈ ps ↔ q ∈ ps') (g g' : Grammar T) (hg : Grammar.new h eps init ps = .ok g)
    (hg' : Grammar.new h' eps init ps' = .ok g') (p : Parser σ L T) (p' : Parser σ' L T)
    (hp : AnyParser h g p) (hp' : AnyParser h' g' p') (e : T) (hem : EndMarked eps init e ps)
    (hun : Unambiguous L eps init ps) (tokens : List (Token L T)) (hin : EndsWith e tokens)
    (s s₁ : σ) (s' s₁' : σ') (tree tree' : Tree L T) (hr : Parses p tokens s (.ok tree) s₁)
    (hr' : Parses p' tokens s' (.ok tree') s₁') : tree = tree' := by
  have hem' : EndMarked eps init e ps' :=
    ⟨hem.ne_eps, fun hc => hem.terminal ((isNonTerminal_congr hps _).2 hc),
      fun q hq => hem.initial_once q ((hps q).2 hq), fun q hq => hem.initial_ends q ((hps q).2 hq),
      fun q hq => hem.only_there q ((hps q).2 hq)⟩
  have h1 := hp.whole hg hem hin hr
  have h2 := isTree_congr (fun q => (hps q).symm) (hp'.whole hg' hem' hin hr')
  have := hun tokens _ _ h1 h2
  cases tree; cases tree'
  simp only at this
  rw [this]

/-- **C68**, where unambiguity comes from: an end-marked grammar is unambiguous if some sets of FIRST and
FOLLOW symbols that obey the textbook rules give a table without conflicts. -/
theorem C68_unambiguous_of_sets (h : HashOrder T) (eps init : T) (ps : List (Production T))
    (g : Grammar T) (hg : Grammar.new h eps init ps = .ok g) (ff : FirstFollow T)
    (hff : ObeysRules eps ps ff) (t : Transitions T) (ht : Transitions.from h g ff = .ok t)
    (hcf : ConflictFree t) (e : T) (hem : EndMarked eps init e ps) : Unambiguous L eps init ps := by
  intro w n n' hn hn'
  let p : Parser Unit L T := ⟨g, none, t⟩
  have hp : Parser.from h g ff none = .ok p := by simp [Parser.from, ht, p]
  have P := Parser.parserOf_of_from hg hp
  have hwf := P.grammar.wf
  have hcov : Parser.Covers eps ps p :=
    TableComplete.covers (C69_closed_sets_table h eps init ps g hg ff hff t ht)
  have hleaf : ∀ m, IsTree eps ps init w m → ¬ EndsEmpty eps ps m := by
    intro m hm
    by_cases hnt : IsNonTerminal ps init
    · exact Parser.not_endsEmpty_of_endMarked hwf hem hnt hm
    · intro hc
      generalize hx : init = x at hm
      cases hm with
      | leaf t h1 =>
        generalize hn : Node.mk [] t = nd at hc
        cases hc with
        | here _ h3 => rw [← hn] at h3; exact h1 h3
        | last a c b t' => simp at hn
      | eps =>
        generalize hn : Node.mk [] ⟨none, eps⟩ = nd at hc
        cases hc with
        | here _ h3 => rw [← hn] at h3; exact hnt (hx ▸ h3)
        | last a c b t' => simp at hn
      | node q _ _ hq => exact absurd ⟨q, hq, rfl⟩ (hx ▸ hnt)
  exact Parser.tree_unique (post := []) P rfl () hcov (Parser.conflictFree_length hcf) hn hn'
    (.inr (hleaf n hn)) (.inr (hleaf n' hn'))

/-! ## The hypotheses can be met -/

/-- `S → A $`, `A → a b | a c`, with `S = 1, A = 2, a = 10, b = 11, c = 12, $ = 16`: unambiguous, but the
parser has to try both productions of `A`. -/
def prefixPs : List (Production Nat) := [⟨1, [2, 16]⟩, ⟨2, [10, 11]⟩, ⟨2, [10, 12]⟩]

theorem prefixPs_unambiguous : Unambiguous Unit 0 1 prefixPs := by
  intro w n n' h h'
  have key : ∀ n, IsTree 0 prefixPs 1 w n → (∃ a b e : Option Unit,
      w = [⟨a, 10⟩, ⟨b, 11⟩, ⟨e, 16⟩] ∧
      n = .mk [.mk [.mk [] ⟨a, 10⟩, .mk [] ⟨b, 11⟩] ⟨none, 2⟩, .mk [] ⟨e, 16⟩] ⟨none, 1⟩) ∨
    (∃ a b e : Option Unit,
      w = [⟨a, 10⟩, ⟨b, 12⟩, ⟨e, 16⟩] ∧
      n = .mk [.mk [.mk [] ⟨a, 10⟩, .mk [] ⟨b, 12⟩] ⟨none, 2⟩, .mk [] ⟨e, 16⟩] ⟨none, 1⟩) := by
    intro n hn
    have ht : ∀ x w (n : Node Unit Nat), x ∈ [10, 11, 12, 16] → IsTree 0 prefixPs x w n →
        ∃ l, w = [⟨l, x⟩] ∧ n = .mk [] ⟨l, x⟩ := by
      intro x w n hx h
      rw [isTree_iff] at h
      rcases h with ⟨_, _, h⟩ | ⟨rfl, _⟩ | ⟨q, hq, rfl, hf⟩
      · exact h
      · simp at hx
      · exfalso; clear hf; revert hx; revert q; decide
    rw [isTree_iff] at hn
    rcases hn with ⟨hc, _⟩ | ⟨hc, _⟩ | ⟨q, hq, hqi, ns, hf, rfl⟩
    · exact absurd ⟨⟨1, [2, 16]⟩, by decide, rfl⟩ hc
    · exact absurd hc (by decide)
    · have hq' : q.output = [2, 16] := by
          clear hf; revert hqi; revert q; decide
      rw [hq', isForest_cons] at hf
      obtain ⟨w1, w2, n1, ns1, rfl, rfl, h1, h2⟩ := hf
      rw [isForest_cons] at h2
      obtain ⟨w3, w4, n3, ns3, rfl, rfl, h3, h4⟩ := h2
      rw [isForest_nil] at h4
      obtain ⟨rfl, rfl⟩ := h4
      obtain ⟨e, rfl, rfl⟩ := ht 16 _ _ (by decide) h3
      rw [isTree_iff] at h1
      rcases h1 with ⟨hc, _⟩ | ⟨hc, _⟩ | ⟨q, hq, hqi, ns, hf, rfl⟩
      · exact absurd ⟨⟨2, [10, 11]⟩, by decide, rfl⟩ hc
      · exact absurd hc (by decide)
      · have hq' : q.output = [10, 11] ∨ q.output = [10, 12] := by
          clear hf; revert hqi; revert q; decide
        rcases hq' with hq' | hq'
        all_goals
          rw [hq', isForest_cons] at hf
          obtain ⟨w1, w2, n1, ns1, rfl, rfl, h1, h2⟩ := hf
          rw [isForest_cons] at h2
          obtain ⟨w3, w4, n3, ns3, rfl, rfl, h3, h4⟩ := h2
          rw [isForest_nil] at h4
          obtain ⟨rfl, rfl⟩ := h4
          obtain ⟨a, rfl, rfl⟩ := ht _ _ _ (by decide) h1
          obtain ⟨b, rfl, rfl⟩ := ht _ _ _ (by decide) h3
        · exact .inl ⟨a, b, e, rfl, rfl⟩
        · exact .inr ⟨a, b, e, rfl, rfl⟩
  rcases key n h with ⟨a, b, e, rfl, rfl⟩ | ⟨a, b, e, rfl, rfl⟩ <;>
    rcases key n' h' with ⟨a', b', e', hw, rfl⟩ | ⟨a', b', e', hw, rfl⟩ <;>
    simp_all

/-- Two parsers for this grammar, with the productions of `A` in either order:
both accept `a c $`; the table has a conflict, so C37 does not apply. -/
example : ∃ g g' p p' t t', Grammar.new (HashOrder.id Nat) 0 1 prefixPs = .ok g ∧
    Grammar.new (HashOrder.id Nat) 0 1 prefixPs.reverse = .ok g' ∧
    (∀ q, q ∈ prefixPs ↔ q ∈ prefixPs.reverse) ∧
    Built (HashOrder.id Nat) g none (p : Parser Unit Unit Nat) ∧
    Built (HashOrder.id Nat) g' none (p' : Parser Unit Unit Nat) ∧
    p.transitions.getProductions 2 10 = some [⟨2, [10, 11]⟩, ⟨2, [10, 12]⟩] ∧
    p'.transitions.getProductions 2 10 = some [⟨2, [10, 12]⟩, ⟨2, [10, 11]⟩] ∧
    EndMarked 0 1 16 prefixPs ∧ Unambiguous Unit 0 1 prefixPs ∧
    EndsWith 16 ([⟨some (), 10⟩, ⟨some (), 12⟩, ⟨none, 16⟩] : List (Token Unit Nat)) ∧
    Parses p [⟨some (), 10⟩, ⟨some (), 12⟩, ⟨none, 16⟩] () (.ok t) () ∧
    Parses p' [⟨some (), 10⟩, ⟨some (), 12⟩, ⟨none, 16⟩] () (.ok t') () := by
  refine ⟨_, _, _, _, _, _, rfl, rfl, by simp, Parser.built_of_eval (n := 10) rfl,
    Parser.built_of_eval (n := 10) rfl, rfl, rfl, ?_, prefixPs_unambiguous, ?_,
    Parser.parse_returns (n := 40) rfl, Parser.parse_returns (n := 40) rfl⟩
  · refine ⟨by decide, by unfold IsNonTerminal; decide, by decide, ?_, by decide⟩
    intro p hp hi
    refine ⟨[2], ?_, by decide⟩
    revert p
    decide
  · exact ⟨[⟨some (), 10⟩, ⟨some (), 12⟩], ⟨none, 16⟩, rfl, rfl, by decide⟩

/-- Sets for `twicePs` that obey the rules and give a table without conflicts. -/
example : Unambiguous Unit 0 1 twicePs := by
  obtain ⟨g, p, _, _, hg, hob, hp, hcf, _, hem, _⟩ := C69_repairs
  exact C68_unambiguous_of_sets _ 0 1 twicePs g hg twiceSets hob _ (Parser.from_eq_ok hp).2.2 hcf 12 hem

end Verif.Props
