import Verif.Proof.TableAny
import Verif.Props.Table
import Verif.Model.Parser

/-!
# Property C44: tables and parsers made from user-supplied FIRST and FOLLOW sets
-/

set_option linter.unusedSectionVars false

namespace Verif.Props

open Verif.Spec Verif.Examples

variable {σ L T : Type} [DecidableEq T]

/-- **C44.** For an accepted grammar and any FIRST and FOLLOW sets: the table is built if the sets
supply what `Supplies` asks for, and otherwise its construction panics on an `unwrap`. A built table has
a cell for `(A, a)` iff `A` is a non-terminal and `a` a terminal; the cell consists of the productions of
`A` that `a` selects by the sets, in grammar order and each as often as the grammar lists it. -/
theorem C44_table_any_sets (h : HashOrder T) (eps init : T) (ps : List (Production T))
    (g : Grammar T) (hg : Grammar.new h eps init ps = .ok g) (ff : FirstFollow T) :
    (Supplies eps ps ff → ∃ t, Transitions.from h g ff = .ok t) ∧
    (¬ Supplies eps ps ff → Transitions.from h g ff = .panic .unwrapNone) ∧
    ∀ t, Transitions.from h g ff = .ok t →
      (∀ A a, (t.getProductions A a).isSome ↔ IsNonTerminal ps A ∧ IsTerminal ps a) ∧
      ∀ A a l, t.getProductions A a = some l →
        (∀ q, q ∈ l ↔ q ∈ ps ∧ q.input = A ∧ LooksAhead eps ff q a) ∧
        l = (ps.filter (fun q => q.input = A)).filter (fun q => q ∈ l) := by
  have G := Grammar.grammarOf_of_new hg
  have hiff := Transitions.from_iff G h ff
  refine ⟨hiff.2, fun hn => ?_, fun t ht => ⟨?_, ?_⟩⟩
  · rcases Transitions.plain_from h g ff with h' | h'
    · exact absurd (hiff.1 h') hn
    · exact h'
  · intro A a
    have S := Transitions.tableOf_of_from G ht
    by_cases hc : IsNonTerminal ps A ∧ IsTerminal ps a
    · rw [S.some A a hc.1 hc.2]; simpa using hc
    · rw [S.none A a hc]; simpa using hc
  · exact fun A a l hl => Transitions.from_cells G ht A a l hl

/-- **C44**, the parser: `from_grammar_and_first_follow_symbols` panics iff the sets do not supply what
is needed, whatever the hash order. -/
theorem C44_parser_any_sets (h : HashOrder T) (eps init : T) (ps : List (Production T))
    (g : Grammar T) (hg : Grammar.new h eps init ps = .ok g) (ff : FirstFollow T) :
    (Supplies eps ps ff →
      ∃ p : Parser σ L T, Parser.fromGrammarAndFirstFollowSymbols h g ff = .ok p) ∧
    (¬ Supplies eps ps ff →
      (Parser.fromGrammarAndFirstFollowSymbols h g ff : Out (Parser σ L T)) = .panic .unwrapNone) := by
  obtain ⟨h1, h2, _⟩ := C44_table_any_sets h eps init ps g hg ff
  constructor
  · intro hs
    obtain ⟨t, ht⟩ := h1 hs
    exact ⟨⟨g, none, t⟩, by simp [Parser.fromGrammarAndFirstFollowSymbols, Parser.from, ht]⟩
  · intro hs
    simp [Parser.fromGrammarAndFirstFollowSymbols, Parser.from, h2 hs]

/-- The grammar's own sets supply what is needed. -/
theorem C44_own_sets_supply (h : HashOrder T) (eps init : T) (ps : List (Production T))
    (g : Grammar T) (hg : Grammar.new h eps init ps = .ok g) (ff : FirstFollow T)
    (hff : Returns (fun n => FirstFollow.from h n g) ff) : Supplies eps ps ff := by
  obtain ⟨t, ht, _⟩ := C12_table_cells h eps init ps g hg ff hff
  exact (Transitions.from_iff (Grammar.grammarOf_of_new hg) h ff).1 ⟨t, ht⟩

/-- Sets that supply what is needed, made up by hand, for `S → A b | c`, `A → a | ε`; those without
FOLLOW(`A`), and those with a non-terminal in FIRST(`A`), do not. -/
example : Supplies 0 ([⟨1, [2, 11]⟩, ⟨1, [12]⟩, ⟨2, [10]⟩, ⟨2, [0]⟩] : List (Production Nat))
      ⟨[(2, [12, 0]), (12, [10]), (10, []), (0, [0])], [(2, [11])]⟩ ∧
    ¬ Supplies 0 ([⟨1, [2, 11]⟩, ⟨1, [12]⟩, ⟨2, [10]⟩, ⟨2, [0]⟩] : List (Production Nat))
      ⟨[(2, [12, 0]), (12, [10]), (10, []), (0, [0])], []⟩ ∧
    ¬ Supplies 0 ([⟨1, [2, 11]⟩, ⟨1, [12]⟩, ⟨2, [10]⟩, ⟨2, [0]⟩] : List (Production Nat))
      ⟨[(2, [1, 0]), (12, [10]), (10, []), (0, [0])], [(2, [11])]⟩ := by
  have key : ∀ ff : FirstFollow Nat, Supplies 0
        ([⟨1, [2, 11]⟩, ⟨1, [12]⟩, ⟨2, [10]⟩, ⟨2, [0]⟩] : List (Production Nat)) ff ↔
      ∃ t, (do
        let g ← Grammar.new (HashOrder.id Nat) 0 1
          ([⟨1, [2, 11]⟩, ⟨1, [12]⟩, ⟨2, [10]⟩, ⟨2, [0]⟩] : List (Production Nat))
        Transitions.from (HashOrder.id Nat) g ff) = .ok t := by
    intro ff
    obtain ⟨g, hg⟩ : ∃ g, Grammar.new (HashOrder.id Nat) 0 1
        ([⟨1, [2, 11]⟩, ⟨1, [12]⟩, ⟨2, [10]⟩, ⟨2, [0]⟩] : List (Production Nat)) = .ok g := ⟨_, rfl⟩
    rw [← Transitions.from_iff (Grammar.grammarOf_of_new hg) (HashOrder.id Nat) ff, hg]
    rfl
  rw [key, key, key]
  refine ⟨⟨_, rfl⟩, ?_, ?_⟩ <;> rintro ⟨t, ht⟩ <;> cases ht

end Verif.Props
