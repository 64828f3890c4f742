import Verif.Proof.Rewrite
import Verif.Proof.Rank
import Verif.Props.Augment
import Verif.Props.Overflow

/-!
# Rewriting a grammar for the parser (C97)
-/

set_option linter.unusedSectionVars false

namespace Verif.Props

open Verif.Spec Verif.Examples

variable {σ L T : Type} [DecidableEq T]

/-- **C97**, removing immediate left recursion: if `a` has a production that does not begin with `a`, the rewritten
grammar is accepted, no production of `a` begins with `a` and none of the new symbol with the new symbol, no other
non-terminal gets or loses a production, and from every symbol of the old grammar the same sentences are derived. -/
theorem C97_left_recursion_removed (h h' : HashOrder T) (eps init a b : T) (ps : List (Production T))
    (g : Grammar T) (hg : Grammar.new h eps init ps = .ok g) (hb : NewSymbol eps ps b)
    (ha : ∃ q ∈ ps, q.input = a ∧ q.output.head? ≠ some a) :
    (∃ g', Grammar.new h' eps init (unrecurse eps a b ps) = .ok g') ∧
    (∀ q ∈ unrecurse eps a b ps, q.input = a ∨ q.input = b → q.output.head? ≠ some q.input) ∧
    (∀ q, q.input ≠ a → q.input ≠ b → (q ∈ unrecurse eps a b ps ↔ q ∈ ps)) ∧
    ∀ x, IsNonTerminal ps x → ∀ w, Sentence eps x (unrecurse eps a b ps) w ↔ Sentence eps x ps w := by
  have hwf := (Grammar.grammarOf_of_new hg).wf
  have hab : a ≠ b := by
    obtain ⟨q, h1, h2, _⟩ := ha
    exact Unrecurse.ne_b hb ⟨q, h1, h2⟩
  refine ⟨(Grammar.new_eq_ok_iff h' eps init _).2 (Unrecurse.wellFormed ha hwf hb), ?_, ?_, fun x hx w =>
    Unrecurse.sentence_iff ha hwf hb hx⟩
  · intro q hq hi
    rcases Unrecurse.mem_iff.1 hq with ⟨h1, h2⟩ | ⟨l, h1, h2, rfl⟩ | ⟨r, h1, h2, h3, rfl⟩ | rfl
    · exact absurd (hi.resolve_left h2) (hb.2 q h1).1
    · cases l with
      | nil => exact absurd rfl h1
      | cons y l =>
        simp only [List.cons_append, List.head?_cons, ne_eq, Option.some.injEq]
        rintro rfl
        exact (hb.2 _ h2).2 (by simp)
    · by_cases e : rhs eps r = []
      · simp only [e, List.nil_append, List.head?_cons, ne_eq, Option.some.injEq]
        exact Ne.symm hab
      · have : rhs eps r = r.output := by
          unfold rhs at e ⊢
          split at e
          · exact absurd rfl e
          · rename_i hc
            rw [if_neg hc]
        simp only [this] at e ⊢
        rw [List.head?_append_of_ne_nil _ e]
        exact h3
    · simp only [List.head?_cons, ne_eq, Option.some.injEq]
      exact hb.1.symm
  · intro q h1 h2
    constructor
    · intro hq
      rcases Unrecurse.mem_iff.1 hq with ⟨h3, _⟩ | ⟨l, _, _, rfl⟩ | ⟨r, _, _, _, rfl⟩ | rfl
      · exact h3
      · exact absurd rfl h2
      · exact absurd rfl h1
      · exact absurd rfl h2
    · exact fun hq => Unrecurse.mem_iff.2 (.inl ⟨hq, h1⟩)

/-- **C97**, left factoring: if `c` is not empty and begins some production of `a`, the rewritten grammar is
accepted, only `a → c b` of the productions of `a` begins with `c`, no non-terminal other than `a` and the new
symbol `b` gets or loses a production, and from every symbol of the old grammar the same sentences are derived. -/
theorem C97_left_factored (h h' : HashOrder T) (eps init a b : T) (c : List T) (ps : List (Production T))
    (g : Grammar T) (hg : Grammar.new h eps init ps = .ok g) (hb : NewSymbol eps ps b) (hc : c ≠ [])
    (he : eps ∉ c) (ha : ∃ q ∈ ps, q.input = a ∧ c <+: q.output) :
    (∃ g', Grammar.new h' eps init (factor eps a b c ps) = .ok g') ∧
    (∀ q ∈ factor eps a b c ps, q.input = a → c <+: q.output → q = ⟨a, c ++ [b]⟩) ∧
    (∀ q, q.input ≠ a → q.input ≠ b → (q ∈ factor eps a b c ps ↔ q ∈ ps)) ∧
    ∀ x, IsNonTerminal ps x → ∀ w, Sentence eps x (factor eps a b c ps) w ↔ Sentence eps x ps w := by
  have hwf := (Grammar.grammarOf_of_new hg).wf
  have hab : a ≠ b := by
    obtain ⟨q, h1, rfl, _⟩ := ha
    exact (hb.2 q h1).1
  refine ⟨(Grammar.new_eq_ok_iff h' eps init _).2 (Factor.wellFormed ha hwf hc he hb), ?_, ?_, fun x hx w =>
    Factor.sentence_iff ha hwf hc he hb hx⟩
  · intro q hq hi hp
    rcases Factor.mem_iff.1 hq with rfl | ⟨_, h2⟩ | ⟨r, _, _, _, rfl⟩
    · rfl
    · exact absurd ⟨hi, hp⟩ h2
    · exact absurd hi.symm hab
  · intro q h1 h2
    constructor
    · intro hq
      rcases Factor.mem_iff.1 hq with rfl | ⟨h3, _⟩ | ⟨r, _, _, _, rfl⟩
      · exact absurd rfl h1
      · exact h3
      · exact absurd rfl h2
    · exact fun hq => Factor.mem_iff.2 (.inr (.inl ⟨hq, fun h => h1 h.1⟩))

/-- **C97**, unfolding: if `y` is a non-terminal, the rewritten grammar is accepted, `x → u y v` goes away (unless
unfolding gives it back) and other productions stay, and from every symbol the same sentences are derived. -/
theorem C97_unfolded (h h' : HashOrder T) (eps init x y : T) (u v : List T) (ps : List (Production T))
    (g : Grammar T) (hg : Grammar.new h eps init ps = .ok g) (hy : IsNonTerminal ps y) :
    (∃ g', Grammar.new h' eps init (unfold eps x y u v ps) = .ok g') ∧
    (∀ q ∈ ps, q ≠ ⟨x, u ++ y :: v⟩ → q ∈ unfold eps x y u v ps) ∧
    ((∀ r ∈ ps, r.input = y → rhs eps r ≠ [y]) → ⟨x, u ++ y :: v⟩ ∉ unfold eps x y u v ps) ∧
    ∀ z, IsNonTerminal ps z → ∀ w, Sentence eps z (unfold eps x y u v ps) w ↔ Sentence eps z ps w := by
  have hwf := (Grammar.grammarOf_of_new hg).wf
  refine ⟨(Grammar.new_eq_ok_iff h' eps init _).2 (Unfold.wellFormed hy hwf),
    fun q h1 h2 => Unfold.mem_iff.2 (.inl ⟨h1, h2⟩), ?_, fun z hz w => Unfold.sentence_iff hy hwf hz⟩
  intro hr hm
  rcases Unfold.mem_iff.1 hm with ⟨_, h2⟩ | ⟨h1, r, h2, h3, h4⟩
  · exact h2 rfl
  · have he := Unfold.eps_not_mem hy hwf h1 h2
    simp only [Production.mk.injEq, true_and] at h4
    have hne : y ≠ eps := by
      obtain ⟨q, hq, rfl⟩ := hy
      exact (hwf q hq).1
    unfold outputOf at h4
    split at h4
    · have : y ∈ ([eps] : List T) := by rw [← h4]; simp
      exact hne (by simpa using this)
    · rw [List.append_assoc, List.append_cancel_left_eq] at h4
      have : [y] ++ v = rhs eps r ++ v := h4
      rw [List.append_cancel_right_eq] at this
      exact hr r h2 h3 this.symm

/-- **C97**, folding: if `c` is not empty and `x → u c v` is a production, the rewritten grammar is accepted, has
`x → u b v` and `b → c` in its place (`b` the new symbol) and no other changes, and from every symbol of the old
grammar the same sentences are derived. -/
theorem C97_folded (h h' : HashOrder T) (eps init x b : T) (u c v : List T) (ps : List (Production T))
    (g : Grammar T) (hg : Grammar.new h eps init ps = .ok g) (hb : NewSymbol eps ps b) (hc : c ≠ [])
    (he : eps ∉ c) (hp : ⟨x, u ++ c ++ v⟩ ∈ ps) :
    (∃ g', Grammar.new h' eps init (fold x b u c v ps) = .ok g') ∧
    (∀ q, q ∈ fold x b u c v ps ↔
      q = ⟨b, c⟩ ∨ q = ⟨x, u ++ b :: v⟩ ∨ q ∈ ps ∧ q ≠ ⟨x, u ++ c ++ v⟩) ∧
    ∀ z, IsNonTerminal ps z → ∀ w, Sentence eps z (fold x b u c v ps) w ↔ Sentence eps z ps w := by
  have hwf := (Grammar.grammarOf_of_new hg).wf
  refine ⟨(Grammar.new_eq_ok_iff h' eps init _).2 (Fold.wellFormed hwf hc he hb), ?_,
    fun z hz w => Fold.sentence_iff hc he hb hp hz⟩
  intro q
  rw [Fold.mem_iff]
  constructor
  · rintro (h1 | h1 | h1)
    · exact .inl h1
    · exact .inr (.inr h1)
    · exact .inr (.inl h1.2)
  · rintro (h1 | h1 | h1)
    · exact .inl h1
    · exact .inr (.inr ⟨hp, h1⟩)
    · exact .inr (.inl h1)

/-- **C97**, any number of rewritings: the rewritten grammar is accepted and has the same sentences. -/
theorem C97_rewritten_language (h h' : HashOrder T) (eps init : T) (ps ps' : List (Production T)) (g : Grammar T)
    (hg : Grammar.new h eps init ps = .ok g) (hinit : IsNonTerminal ps init) (hr : Rewritten eps init ps ps') :
    (∃ g', Grammar.new h' eps init ps' = .ok g') ∧ ∀ w, Sentence eps init ps' w ↔ Sentence eps init ps w := by
  obtain ⟨h1, _, h3⟩ := Rewritten.keeps hr (Grammar.grammarOf_of_new hg).wf hinit
  exact ⟨(Grammar.new_eq_ok_iff h' eps init ps').2 h1, h3⟩

/-- **C97**, deciding. Let a grammar be rewritten until it is not left-recursive and has no two equal
non-terminals side by side, and let the table of the result with an end marker have no conflicts. Then its parser
decides the language of the grammar it began with: with an end marker behind it an input gives `Ok` if it is a
sentence, and `Err` if it is none. -/
theorem C97_decides (h h' : HashOrder T) (eps init start stop : T) (ps ps' : List (Production T)) (g g' : Grammar T)
    (hg : Grammar.new h eps init ps = .ok g) (hinit : IsNonTerminal ps init) (hr : Rewritten eps init ps ps')
    (hf : Fresh eps ps' start stop)
    (hg' : Grammar.new h' eps start (augment init start stop ps') = .ok g') (p : Parser σ L T)
    (hp : Built h' g' none p) (hcf : ConflictFree p.transitions) (hadj : NoAdjacentRepeat ps')
    (hnlr : NotLeftRecursive eps ps') (tokens : List (Token L T)) (hns : ∀ t ∈ tokens, t.tType ≠ stop)
    (lex : Option L) (s : σ) :
    (Sentence eps init ps (tokens.map (·.tType)) →
      ∃ tree, Parses p (tokens ++ [⟨lex, stop⟩]) s (.ok tree) s) ∧
    (¬ Sentence eps init ps (tokens.map (·.tType)) →
      ∃ f s', Parses p (tokens ++ [⟨lex, stop⟩]) s (.err f) s') := by
  obtain ⟨_, h2, h3⟩ := Rewritten.keeps hr (Grammar.grammarOf_of_new hg).wf hinit
  obtain ⟨⟨g₁, hg₁⟩, _⟩ := C97_rewritten_language h h' eps init ps ps' g hg hinit hr
  obtain ⟨k1, k2⟩ := C88_decides h' h' eps init start stop ps' hf h2 g₁ hg₁ g' hg' p hp hcf hadj
    tokens hns lex s hnlr
  rw [h3] at k1 k2
  refine ⟨fun hs => ?_, k2⟩
  obtain ⟨n, _, h5⟩ := k1 hs
  exact ⟨_, h5⟩

/-- `E → E + T | T`, `T → a | a [ E ]`, with `E = 1, T = 2`, `+ = 11, a = 12, [ = 13, ] = 14`. -/
def sumPs : List (Production Nat) := [⟨1, [1, 11, 2]⟩, ⟨1, [2]⟩, ⟨2, [12]⟩, ⟨2, [12, 13, 1, 14]⟩]

/-- `sumPs` with `a` factored out of the productions of `T`, with the new symbol `4`, and without the left
recursion of `E`, with the new symbol `3`. -/
def sumPs' : List (Production Nat) :=
  [⟨2, [12, 4]⟩, ⟨3, [11, 2, 3]⟩, ⟨1, [2, 3]⟩, ⟨4, [0]⟩, ⟨4, [13, 1, 14]⟩, ⟨3, [0]⟩]

/-- The hypotheses of C97 are met by `sumPs`, whose own parser does not come to an end on `a + a`, and the parser of
the rewritten grammar accepts it. -/
theorem C97_example : ∃ g g₀ g' p₀ p tree, Grammar.new (HashOrder.id Nat) 0 1 sumPs = .ok g ∧
    IsNonTerminal sumPs 1 ∧ Rewritten 0 1 sumPs sumPs' ∧ Fresh 0 sumPs' 6 16 ∧
    Grammar.new (HashOrder.id Nat) 0 6 (augment 1 6 16 sumPs) = .ok g₀ ∧
    Grammar.new (HashOrder.id Nat) 0 6 (augment 1 6 16 sumPs') = .ok g' ∧
    Built (σ := Unit) (L := Unit) (HashOrder.id Nat) g₀ none p₀ ∧
    Built (σ := Unit) (L := Unit) (HashOrder.id Nat) g' none p ∧ ConflictFree p.transitions ∧
    NoAdjacentRepeat sumPs' ∧ NotLeftRecursive 0 sumPs' ∧
    ParseDiverges p₀ [⟨none, 12⟩, ⟨none, 11⟩, ⟨none, 12⟩, ⟨none, 16⟩] () ∧
    Parses p [⟨none, 12⟩, ⟨none, 11⟩, ⟨none, 12⟩, ⟨none, 16⟩] () (.ok tree) () := by
  have hrw : Rewritten 0 1 sumPs sumPs' := by
    have h1 : sumPs' = unrecurse 0 1 3 (factor 0 2 4 [12] sumPs) := by decide
    rw [h1]
    refine .unrecurse 1 3 (.factor 2 4 [12] (.refl _) ?_ (by simp) (by simp) ⟨⟨2, [12]⟩, by decide, rfl, by decide⟩)
      ?_ ⟨⟨1, [2]⟩, by decide, rfl, by decide⟩
    · exact ⟨by decide, by decide⟩
    · exact ⟨by decide, by decide⟩
  obtain ⟨g, g₀, g', p₀, p, tree, hg, hg₀, hg', hp₀, hp, hr, hall, hd⟩ : ∃ g g₀ g' p₀ p tree,
      Grammar.new (HashOrder.id Nat) 0 1 sumPs = .ok g ∧
      Grammar.new (HashOrder.id Nat) 0 6 (augment 1 6 16 sumPs) = .ok g₀ ∧
      Grammar.new (HashOrder.id Nat) 0 6 (augment 1 6 16 sumPs') = .ok g' ∧
      Built (σ := Unit) (L := Unit) (HashOrder.id Nat) g₀ none p₀ ∧
      Built (σ := Unit) (L := Unit) (HashOrder.id Nat) g' none p ∧
      Parses p [⟨none, 12⟩, ⟨none, 11⟩, ⟨none, 12⟩, ⟨none, 16⟩] () (.ok tree) () ∧
      (∀ x ∈ (augment 1 6 16 sumPs').map (·.input), ∀ a ∈ (augment 1 6 16 sumPs').flatMap (·.output),
        ((p.transitions.getProductions x a).getD []).length ≤ 1) ∧
      p₀.parseFromTokensWithin (5 * 4 + 1) ((5 + 2) ^ 4)
        [⟨none, 12⟩, ⟨none, 11⟩, ⟨none, 12⟩, ⟨none, 16⟩] () = .fuel :=
    ⟨_, _, _, _, _, _, rfl, rfl, rfl, Parser.built_of_eval (n := 10) rfl, Parser.built_of_eval (n := 10) rfl,
      Parser.parse_returns (n := 30) rfl, by decide, rfl⟩
  refine ⟨g, g₀, g', p₀, p, tree, hg, ⟨⟨1, [2]⟩, by decide, rfl⟩, hrw,
    ⟨by decide, by decide, by decide, by decide, by decide⟩, hg₀, hg', hp₀, hp,
    conflictFree_of_check hg' hp hall, ?_, ?_, ?_, hr⟩
  · intro p hp u x v he hx
    have : ∀ p ∈ sumPs', ∀ i < p.output.length, p.output[i]? ≠ p.output[i + 1]? := by decide
    refine this p hp u.length (by rw [he]; simp) ?_
    rw [he]
    simp
  · exact notLeftRecursive_of_rank (fun x => x == 3 || x == 4)
      (fun x => if x = 1 then 2 else if x < 5 then 1 else 0) (by decide)
  · exact (C85_decided _ 0 6 (augment 1 6 16 sumPs) g₀ hg₀ p₀ hp₀ 4 (by decide) _ ()).1.2 hd

/-- `S → A a | b`, `A → S c b b | d`, `S` left-recursive through `A`, with `S = 1, A = 2`,
`a = 11, b = 12, c = 13, d = 14`. -/
def indirectPs : List (Production Nat) := [⟨1, [2, 11]⟩, ⟨1, [12]⟩, ⟨2, [1, 13, 12, 12]⟩, ⟨2, [14]⟩]

/-- `A` unfolded and dropped, the left recursion removed, `b b` folded. -/
def indirectPs' : List (Production Nat) :=
  [⟨4, [12, 12]⟩, ⟨3, [13, 4, 11, 3]⟩, ⟨1, [14, 11, 3]⟩, ⟨1, [12, 3]⟩, ⟨3, [0]⟩]

/-- The other rewritings: the hypotheses of C97 are met. -/
theorem C97_indirect_example : ∃ g g' p tree, Grammar.new (HashOrder.id Nat) 0 1 indirectPs = .ok g ∧
    IsNonTerminal indirectPs 1 ∧ Rewritten 0 1 indirectPs indirectPs' ∧ Fresh 0 indirectPs' 6 16 ∧
    Grammar.new (HashOrder.id Nat) 0 6 (augment 1 6 16 indirectPs') = .ok g' ∧
    Built (σ := Unit) (L := Unit) (HashOrder.id Nat) g' none p ∧ ConflictFree p.transitions ∧
    NoAdjacentRepeat indirectPs' ∧ NotLeftRecursive 0 indirectPs' ∧
    Parses p [⟨none, 12⟩, ⟨none, 13⟩, ⟨none, 12⟩, ⟨none, 12⟩, ⟨none, 11⟩, ⟨none, 16⟩] () (.ok tree) () := by
  have hrw : Rewritten 0 1 indirectPs indirectPs' := by
    have h1 : indirectPs' = fold 3 4 [13] [12, 12] [11, 3]
      (unrecurse 0 1 3 (Spec.drop [2] (unfold 0 1 2 [] [11] indirectPs))) := by decide
    rw [h1]
    refine .fold 3 4 [13] [12, 12] [11, 3] (.unrecurse 1 3 (.drop [2] (.unfold 1 2 [] [11] (.refl _) ?_) ?_ ?_) ?_ ?_)
      ?_ (by simp) (by simp) (by decide)
    · exact ⟨⟨2, [14]⟩, by decide, rfl⟩
    · decide
    · decide
    · exact ⟨by decide, by decide⟩
    · exact ⟨⟨1, [12]⟩, by decide, rfl, by decide⟩
    · exact ⟨by decide, by decide⟩
  obtain ⟨g, g', p, tree, hg, hg', hp, hr, hall⟩ : ∃ g g' p tree,
      Grammar.new (HashOrder.id Nat) 0 1 indirectPs = .ok g ∧
      Grammar.new (HashOrder.id Nat) 0 6 (augment 1 6 16 indirectPs') = .ok g' ∧
      Built (σ := Unit) (L := Unit) (HashOrder.id Nat) g' none p ∧
      Parses p [⟨none, 12⟩, ⟨none, 13⟩, ⟨none, 12⟩, ⟨none, 12⟩, ⟨none, 11⟩, ⟨none, 16⟩] () (.ok tree) () ∧
      (∀ x ∈ (augment 1 6 16 indirectPs').map (·.input), ∀ a ∈ (augment 1 6 16 indirectPs').flatMap (·.output),
        ((p.transitions.getProductions x a).getD []).length ≤ 1) :=
    ⟨_, _, _, _, rfl, rfl, Parser.built_of_eval (n := 10) rfl, Parser.parse_returns (n := 30) rfl, by decide⟩
  refine ⟨g, g', p, tree, hg, ⟨⟨1, [12]⟩, by decide, rfl⟩, hrw,
    ⟨by decide, by decide, by decide, by decide, by decide⟩, hg', hp,
    conflictFree_of_check hg' hp hall, ?_, ?_, hr⟩
  · intro p hp u x v he hx
    have : ∀ p ∈ indirectPs', ∀ i < p.output.length, p.output[i]? ≠ p.output[i + 1]? ∨
        p = ⟨4, [12, 12]⟩ := by decide
    rcases this p hp u.length (by rw [he]; simp) with h | h
    · exact h (by rw [he]; simp)
    · subst h
      have : x ∈ ([12, 12] : List Nat) := by
        change [12, 12] = _ at he
        rw [he]
        simp
      obtain rfl : x = 12 := by simpa using this
      revert hx
      unfold IsNonTerminal
      decide
  · exact notLeftRecursive_of_rank (fun x => x == 3) (fun x => if x < 5 then 1 else 0) (by decide)

end Verif.Props
