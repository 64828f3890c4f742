import Verif.Proof.TreeHeight
import Verif.Props.Depth

/-!
# Property C67: the size of the returned trees
-/

set_option linter.unusedSectionVars false

namespace Verif.Props

open Verif.Spec Verif.Examples

variable {σ L T : Type} [DecidableEq T]

/-- **C67**, height: for a grammar without left recursion with `N` non-terminals, an `Ok` tree over `k`
tokens has height at most `N * (k + 1)`, with any solver. -/
theorem C67_tree_height (h : HashOrder T) (eps init : T) (ps : List (Production T))
    (g : Grammar T) (hg : Grammar.new h eps init ps = .ok g) (hnlr : NotLeftRecursive eps ps)
    (solver : Option (Solver σ L T)) (p : Parser σ L T) (hp : Built h g solver p)
    (tokens : List (Token L T)) (s s' : σ) (tree : Tree L T) (hr : Parses p tokens s (.ok tree) s') :
    height tree.root ≤ nonTerminalCount ps * ((leaves eps tree.root).length + 1) := by
  have P := (Parser.tableParser_of_built hg hp).1
  obtain ⟨k, _, hnt, h1, _, h2⟩ := ok_tree P.toParserOf hr
  have h3 := (Parser.tree_height P.grammar.wf hnlr h1).1 hnt
  have h4 := Parser.cornerRank_lt_card hnlr hnt
  have hN : (Parser.nts ps).card = nonTerminalCount ps := by
    rw [Parser.nts, List.card_toFinset, nonTerminalCount]
  rw [h2, ← hN, Nat.mul_add, Nat.mul_one]
  omega

/-- **C67**, nodes: for each grammar without left recursion there is a constant `c` such that an `Ok`
tree over `k` tokens has at most `c * (k + 1)` nodes, with any solver, input and hash order. -/
theorem C67_tree_nodes (eps init : T) (ps : List (Production T)) (hnlr : NotLeftRecursive eps ps) :
    ∃ c, ∀ (σ L : Type) (h : HashOrder T) (g : Grammar T), Grammar.new h eps init ps = .ok g →
      ∀ (solver : Option (Solver σ L T)) (p : Parser σ L T), Built h g solver p →
      ∀ (tokens : List (Token L T)) (s s' : σ) (tree : Tree L T), Parses p tokens s (.ok tree) s' →
      nodes tree.root ≤ c * ((leaves eps tree.root).length + 1) := by
  by_cases hw : WellFormed eps ps
  · obtain ⟨c, hc⟩ := Parser.nodes_linear hw hnlr
    refine ⟨c, ?_⟩
    intro σ L h g hg solver p hp tokens s s' tree hr
    have P := (Parser.tableParser_of_built hg hp).1
    obtain ⟨k, _, hnt, h1, _, h2⟩ := ok_tree P.toParserOf hr
    rw [h2]
    exact hc L _ _ _ h1
  · exact ⟨0, fun σ L h g hg => absurd (Grammar.grammarOf_of_new hg).wf hw⟩

/-- The hypotheses of C67 are met by `id + id $` in the expression grammar (6 non-terminals), whose tree
has height 5 and 17 nodes. -/
example : ∃ g p tree, Grammar.new (HashOrder.id Nat) 0 1 exprPs = .ok g ∧ NotLeftRecursive 0 exprPs ∧
    Built (σ := Unit) (L := Unit) (HashOrder.id Nat) g none p ∧
    Parses p [⟨none, 15⟩, ⟨none, 11⟩, ⟨none, 15⟩, ⟨none, 16⟩] () (.ok tree) () ∧
    (leaves 0 tree.root).length = 4 ∧ nonTerminalCount exprPs = 6 ∧
    height tree.root = 5 ∧ nodes tree.root = 17 :=
  ⟨_, _, _, rfl, exprPs_notLeftRecursive, Parser.built_of_eval (n := 10) rfl,
    Parser.parse_returns (n := 30) rfl, rfl, rfl, by decide, by decide⟩

end Verif.Props
