import Verif.Proof.Congr

/-!
# Property C45: only the order of the productions of one symbol matters
-/

set_option linter.unusedSectionVars false

namespace Verif.Props

open Verif.Spec Verif.Examples

variable {σ L T : Type} [DecidableEq T]

/-- **C45**, the table: if two production lists have, for every symbol, the same productions of that
symbol in the same order, both are accepted or both are not, and the tables have the same cells. -/
theorem C45_table_order (h h' : HashOrder T) (eps init : T) (ps ps' : List (Production T))
    (hps : ∀ A, ps.filter (fun p => p.input = A) = ps'.filter (fun p => p.input = A))
    (g : Grammar T) (hg : Grammar.new h eps init ps = .ok g) :
    ∃ g', Grammar.new h' eps init ps' = .ok g' ∧ ∀ ff ff' t t',
      Returns (fun n => FirstFollow.from h n g) ff → Returns (fun n => FirstFollow.from h' n g') ff' →
      Transitions.from h g ff = .ok t → Transitions.from h' g' ff' = .ok t' →
      ∀ A a, t.getProductions A a = t'.getProductions A a := by
  have hmem := mem_congr_of_filter hps
  have hwf : WellFormed eps ps' := fun p hp =>
    (Grammar.new_eq_ok_iff h eps init ps).1 ⟨g, hg⟩ p ((hmem p).2 hp)
  obtain ⟨g', hg'⟩ := (Grammar.new_eq_ok_iff h' eps init ps').2 hwf
  refine ⟨g', hg', fun ff ff' t t' hff hff' ht ht' A a => ?_⟩
  obtain ⟨S, hS, hL⟩ := table_spec hg hff ht
  obtain ⟨S', hS', hL'⟩ := table_spec hg' hff' ht'
  have hnt := isNonTerminal_congr hmem A
  have htm := isTerminal_congr hmem a
  by_cases hc : IsNonTerminal ps A ∧ IsTerminal ps a
  · rw [hS.some A a hc.1 hc.2, hS'.some A a (hnt.1 hc.1) (htm.1 hc.2)]
    congr 1
    have e : ∀ (l : List (Production T)) (S : Production T → List T),
        l.filter (fun q => q.input = A ∧ a ∈ S q) =
        (l.filter (fun q => q.input = A)).filter (fun q => a ∈ S q) := by
      intro l S
      rw [List.filter_filter]
      apply List.filter_congr
      intro q _
      simp [Bool.and_comm]
    rw [e, e, ← hps]
    apply List.filter_congr
    intro q hq
    have hq' := (List.mem_filter.1 hq).1
    rw [decide_eq_decide, hL q hq', hL' q ((hmem q).1 hq'), lead_congr hmem]
  · rw [hS.none A a hc, hS'.none A a (by rw [← hnt, ← htm]; exact hc)]

/-- **C45.** The result of every parse depends, for a given solver, only on the productions of each
symbol and their order: interleaving the productions of different symbols in another way, under any
hash orders, changes nothing. -/
theorem C45_parse_order (h h' : HashOrder T) (eps init : T) (ps ps' : List (Production T))
    (hps : ∀ A, ps.filter (fun p => p.input = A) = ps'.filter (fun p => p.input = A))
    (g g' : Grammar T) (hg : Grammar.new h eps init ps = .ok g)
    (hg' : Grammar.new h' eps init ps' = .ok g') (solver : Option (Solver σ L T))
    (p p' : Parser σ L T) (hp : Built h g solver p) (hp' : Built h' g' solver p')
    (tokens : List (Token L T)) (s : σ) :
    (∀ r s', Parses p tokens s r s' ↔ Parses p' tokens s r s') ∧
    (ParsePanics p tokens s ↔ ParsePanics p' tokens s) ∧
    (ParseDiverges p tokens s ↔ ParseDiverges p' tokens s) := by
  obtain ⟨P, hs⟩ := Parser.tableParser_of_built hg hp
  obtain ⟨P', hs'⟩ := Parser.tableParser_of_built hg' hp'
  obtain ⟨ff, hff, e⟩ := (Parser.built_iff hg).1 hp
  obtain ⟨ff', hff', e'⟩ := (Parser.built_iff hg').1 hp'
  have hmem := mem_congr_of_filter hps
  refine Parser.outcomes_of_agree P.toParserOf ⟨?_, ?_, ?_, ?_⟩ (by rw [hs, hs']) tokens s
  · rw [P.grammar.eps_eq, P'.grammar.eps_eq]
  · rw [P.grammar.init_eq, P'.grammar.init_eq]
  · intro x
    rw [Bool.eq_iff_iff, Parser.isNT_iff P.toParserOf, Parser.isNT_iff P'.toParserOf,
      isNonTerminal_congr hmem]
  · intro x a
    rw [Parser.getTokenProductions_eq, Parser.getTokenProductions_eq]
    unfold candidates
    obtain ⟨g'', hg'', ht⟩ := C45_table_order h h' eps init ps ps' hps g hg
    rw [hg'] at hg''
    cases hg''
    rw [ht ff ff' _ _ hff hff' (Parser.from_eq_ok e).2.2 (Parser.from_eq_ok e').2.2 x a]

/-- The hypothesis is met by two interleavings of `S → A b | c`, `A → a | ε`. -/
example : ∀ A, ([⟨1, [2, 11]⟩, ⟨1, [12]⟩, ⟨2, [10]⟩, ⟨2, [0]⟩] : List (Production Nat)).filter
      (fun p => p.input = A) =
    ([⟨2, [10]⟩, ⟨1, [2, 11]⟩, ⟨2, [0]⟩, ⟨1, [12]⟩] : List (Production Nat)).filter
      (fun p => p.input = A) := by
  intro A
  by_cases h1 : A = 1
  · subst h1; decide
  · by_cases h2 : A = 2
    · subst h2; decide
    · simp [Ne.symm h1, Ne.symm h2]

/-- The order of the productions of one symbol does matter: `S → a | a b` and `S → a b | a` give
different trees for `a b`. -/
theorem C45_order_of_one_symbol_matters : ∃ g g' p p' tree tree',
    Grammar.new (HashOrder.id Nat) 0 1 [⟨1, [10]⟩, ⟨1, [10, 11]⟩] = .ok g ∧
    Grammar.new (HashOrder.id Nat) 0 1 [⟨1, [10, 11]⟩, ⟨1, [10]⟩] = .ok g' ∧
    Built (σ := Unit) (L := Unit) (HashOrder.id Nat) g none p ∧
    Built (σ := Unit) (L := Unit) (HashOrder.id Nat) g' none p' ∧
    Parses p [⟨none, 10⟩, ⟨none, 11⟩] () (.ok tree) () ∧
    Parses p' [⟨none, 10⟩, ⟨none, 11⟩] () (.ok tree') () ∧
    leaves 0 tree.root = [⟨none, 10⟩] ∧ leaves 0 tree'.root = [⟨none, 10⟩, ⟨none, 11⟩] :=
  ⟨_, _, _, _, _, _, rfl, rfl, Parser.built_of_eval (n := 10) rfl, Parser.built_of_eval (n := 10) rfl,
    Parser.parse_returns (n := 20) rfl, Parser.parse_returns (n := 20) rfl, rfl, rfl⟩

end Verif.Props
