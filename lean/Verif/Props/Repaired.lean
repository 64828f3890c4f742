import Verif.Proof.Repaired
import Verif.Props.FixAt
import Verif.Props.LL1
import Verif.Props.ErrorsOnly
import Verif.Props.Ahead
import Verif.Props.Reduced

/-!
# Property C82: a `Fix` repairs the input
-/

set_option linter.unusedSectionVars false

namespace Verif.Props

open Verif.Spec Verif.Examples

variable {σ L T : Type} [DecidableEq T]

/-- **C82.** A `Fix` result stands for a row of pieces that lie side by side in the input from the first token
on: the tokens in its parse trees, and the non-terminals the solver fixed (at least one). Read from left to
right they are a sentential form: derived from the initial symbol. So if every fixed non-terminal is replaced by
any word derived from it, the whole is derived from the initial symbol. -/
theorem C82_fix_is_sentential_form (h : HashOrder T) (eps init : T) (ps : List (Production T))
    (g : Grammar T) (hg : Grammar.new h eps init ps = .ok g) (solver : Option (Solver σ L T))
    (p : Parser σ L T) (hp : Built h g solver p) (tokens : List (Token L T)) (s s' : σ)
    (f : FixedSymbol L T) (hr : Parses p tokens s (.fix f) s') :
    ∃ l j, FixAt eps ps solver tokens init 0 j (keptTokens l) f ∧ Covers solver tokens l 0 j ∧
      (∃ x, Piece.repaired x ∈ l) ∧ (∀ x, Piece.repaired x ∈ l → x = init ∨ IsNonTerminal ps x) ∧
      Derives eps ps [init] (l.map Piece.symbol) ∧
      ∀ w, Filled eps ps l w → Derives eps ps [init] w := by
  obtain ⟨j, w, hf⟩ := C47_fix_parts_side_by_side h eps init ps g hg solver p hp tokens s s' f hr
  obtain ⟨l, h1, rfl, h2, h3, h4⟩ := Parser.Recovery.fixAt_pieces (Grammar.grammarOf_of_new hg).wf hf
  exact ⟨l, j, hf, h1, h4, h3, h2, fun w hw => h2.trans (Parser.Recovery.filled_derives hw)⟩

/-- **C82**, the repaired input is accepted: let the grammar be end-marked, without two equal non-terminals side
by side, with a table without conflicts. If the parser returns a `Fix`, then every input that is obtained from
the pieces by replacing the fixed non-terminals by terminals derived from them is accepted by the same parser
(and by the one without a solver). -/
theorem C82_repaired_input_accepted (h : HashOrder T) (eps init : T) (ps : List (Production T))
    (g : Grammar T) (hg : Grammar.new h eps init ps = .ok g) (solver : Option (Solver σ L T))
    (p : Parser σ L T) (hp : Built h g solver p) (hcf : ConflictFree p.transitions)
    (hadj : NoAdjacentRepeat ps) (e : T) (hem : EndMarked eps init e ps) (tokens : List (Token L T))
    (s s' : σ) (f : FixedSymbol L T) (hr : Parses p tokens s (.fix f) s') :
    ∃ l j, FixAt eps ps solver tokens init 0 j (keptTokens l) f ∧ Covers solver tokens l 0 j ∧
      (∃ x, Piece.repaired x ∈ l) ∧
      ∀ (tokens' : List (Token L T)) (s : σ), Filled eps ps l (tokens'.map (·.tType)) →
        (∀ t ∈ tokens', IsTerminal ps t.tType ∧ t.tType ≠ eps) →
        ∃ tree, Parses p tokens' s (.ok tree) s := by
  obtain ⟨l, j, hf, h1, h2, _, _, h3⟩ :=
    C82_fix_is_sentential_form h eps init ps g hg solver p hp tokens s s' f hr
  refine ⟨l, j, hf, h1, h2, fun tokens' s hfill hterm => ?_⟩
  obtain ⟨p0, hp0⟩ := Parser.built_exists (σ := σ) (L := L) hg none
  have hcf0 := conflictFree_of_agree (Parser.agree_of_built hg hg hp hp0) hcf
  obtain ⟨tree, ht⟩ := C23_complete_partial h eps init ps g hg p0 hp0 hcf0 hadj e hem tokens'
    ⟨h3 _ hfill, by
      intro a ha
      obtain ⟨t, ht, rfl⟩ := List.mem_map.1 ha
      exact hterm t ht⟩ s
  refine ⟨tree, ?_⟩
  cases solver with
  | none =>
    exact ((C36_hash_independent h h eps init ps g g hg hg none p0 p hp0 hp tokens' s).1 _ _).1 ht
  | some sv => exact ((C58_only_errors_change h h eps init ps g g hg hg p0 hp0 hcf0 sv p hp tokens' s s).1
      tree s).2 ⟨rfl, ht⟩

/-- **C82**, trees: let every non-terminal derive some word of terminals. Then a `Fix` result can be turned into
a parse tree by replacing the fixes of the solver by parse trees, and, if the grammar is end-marked, without two
equal non-terminals side by side, with a table without conflicts, every tree that is obtained in this way, with
whatever trees in place of the fixes, is the one the same parser returns for the tokens of the tree. -/
theorem C82_repaired_tree (h : HashOrder T) (eps init : T) (ps : List (Production T))
    (g : Grammar T) (hg : Grammar.new h eps init ps = .ok g) (solver : Option (Solver σ L T))
    (p : Parser σ L T) (hp : Built h g solver p) (hinit : IsNonTerminal ps init)
    (hprod : ∀ x, IsNonTerminal ps x → Productive eps ps x) (tokens : List (Token L T))
    (s s' : σ) (f : FixedSymbol L T) (hr : Parses p tokens s (.fix f) s') :
    (∃ j w n, RepairedTree eps ps solver tokens init 0 j f w n) ∧
    ∀ j w n, RepairedTree eps ps solver tokens init 0 j f w n →
      IsTree eps ps init w n ∧
      (ConflictFree p.transitions → NoAdjacentRepeat ps → ∀ e, EndMarked eps init e ps →
        ∀ s, Parses p w s (.ok ⟨n⟩) s) := by
  have hwf := (Grammar.grammarOf_of_new hg).wf
  constructor
  · obtain ⟨j, v, hf⟩ := C47_fix_parts_side_by_side h eps init ps g hg solver p hp tokens s s' f hr
    obtain ⟨w, n, hn⟩ := Parser.Recovery.repairedTree_exists (fun x hx => by
      obtain ⟨w, h1, h2⟩ := hprod x hx
      have e : (w.map (fun a => (⟨none, a⟩ : Token L T))).map (·.tType) = w := by
        rw [List.map_map]; exact List.map_id _
      exact ⟨w.map (fun a => ⟨none, a⟩), Parser.tree_of_sentence ⟨by rw [e]; exact h1, by rw [e]; exact h2⟩⟩)
      hinit hf
    exact ⟨j, w, n, hn⟩
  · intro j w n hn
    have ht := Parser.Recovery.repairedTree_isTree hn
    refine ⟨ht, fun hcf hadj e hem s => ?_⟩
    obtain ⟨p0, hp0⟩ := Parser.built_exists (σ := σ) (L := L) hg none
    have hcf0 := conflictFree_of_agree (Parser.agree_of_built hg hg hp hp0) hcf
    have hp1 := C21_ll1_complete h eps init ps g hg p0 hp0 hcf0 hadj hinit w [] n ht
      (.inr (Parser.not_endsEmpty_of_endMarked hwf hem hinit ht)) s
    rw [List.append_nil] at hp1
    cases solver with
    | none => exact ((C36_hash_independent h h eps init ps g g hg hg none p0 p hp0 hp w s).1 _ _).1 hp1
    | some sv =>
      have h58 := C58_only_errors_change h h eps init ps g g hg hg p0 hp0 hcf0 sv p hp w s s
      exact (h58.1 _ s).2 ⟨rfl, hp1⟩

/-- A solver that repairs what begins with `(`: it skips two tokens. -/
def skipper : Solver Unit Unit Nat where
  fixFailedProduction tokens pos _ := fun s =>
    .ok ((if (tokens[pos]?).map (·.tType) = some 13 then some ⟨pos + 2, .mk []⟩ else none), s)
  fixFailedProductions tokens pos _ := fun s =>
    .ok ((if (tokens[pos]?).map (·.tType) = some 13 then some ⟨pos + 2, .mk []⟩ else none), s)

/-- The hypotheses of the three theorems are met: `id * ( ) $` for the grammar of expressions and this solver. The pieces are
`id`, `*`, a factor, `$`; with the factor replaced by `id` the input `id * id $` is accepted. -/
example : ∃ g p f tree, Grammar.new (HashOrder.id Nat) 0 1 exprPs = .ok g ∧
    Built (HashOrder.id Nat) g (some skipper) p ∧ ConflictFree p.transitions ∧
    NoAdjacentRepeat exprPs ∧ EndMarked 0 1 16 exprPs ∧ IsNonTerminal exprPs 1 ∧
    (∀ x, IsNonTerminal exprPs x → Productive 0 exprPs x) ∧
    Parses p [⟨none, 15⟩, ⟨none, 12⟩, ⟨none, 13⟩, ⟨none, 14⟩, ⟨none, 16⟩] () (.fix f) () ∧
    Covers (some skipper) [⟨none, 15⟩, ⟨none, 12⟩, ⟨none, 13⟩, ⟨none, 14⟩, ⟨none, 16⟩]
      [.kept ⟨none, 15⟩, .kept ⟨none, 12⟩, .repaired 6, .kept ⟨none, 16⟩] 0 5 ∧
    Filled (L := Unit) 0 exprPs [.kept ⟨none, 15⟩, .kept ⟨none, 12⟩, .repaired 6, .kept ⟨none, 16⟩]
      [15, 12, 15, 16] ∧
    Parses p [⟨none, 15⟩, ⟨none, 12⟩, ⟨none, 15⟩, ⟨none, 16⟩] () (.ok tree) () := by
  obtain ⟨g, p, f, tree, hg, hp, hr, ht⟩ : ∃ g p f tree,
      Grammar.new (HashOrder.id Nat) 0 1 exprPs = .ok g ∧ Built (HashOrder.id Nat) g (some skipper) p ∧
      Parses p [⟨none, 15⟩, ⟨none, 12⟩, ⟨none, 13⟩, ⟨none, 14⟩, ⟨none, 16⟩] () (.fix f) () ∧
      Parses p [⟨none, 15⟩, ⟨none, 12⟩, ⟨none, 15⟩, ⟨none, 16⟩] () (.ok tree) () :=
    ⟨_, _, _, _, rfl, Parser.built_of_eval_solver (n := 10) rfl, Parser.parse_returns (n := 40) rfl,
      Parser.parse_returns (n := 40) rfl⟩
  refine ⟨g, p, f, tree, hg, hp, exprPs_conflictFree p _ g hg _ hp, exprPs_noAdjacentRepeat,
    exprPs_endMarked, ⟨⟨1, [2, 16]⟩, by decide, rfl⟩, fun x hx => (exprPs_reduced x hx).2, hr, ?_, ?_, ht⟩
  · refine .kept _ _ _ _ rfl (.kept _ _ _ _ rfl (.repaired _ _ _ _ ⟨4, .mk []⟩ ?_
      (.kept _ _ _ _ rfl (.nil _))))
    exact ⟨by decide, skipper, (), (), rfl, .inr ⟨[], rfl⟩⟩
  · exact .kept _ _ _ (.kept _ _ _ (.repaired _ _ [15] [16]
      (Derives.of_production (p := ⟨6, [15]⟩) (by decide)) (.kept _ _ _ .nil)))

end Verif.Props
