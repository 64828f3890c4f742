import Verif.Props.Table
import Verif.Spec.LL1

/-!
# Properties C13 and C14: exactly when the table is the one of Algorithm 4.31
-/

set_option linter.unusedSectionVars false

namespace Verif.Props

open Verif.Spec Verif.Examples

variable {T : Type} [DecidableEq T]

/-- `a` is in the computed FOLLOW set of `x`. -/
def InComputedFollow (ff : FirstFollow T) (x a : T) : Prop := ∃ s, ff.getFollowSymbols x = some s ∧ a ∈ s

theorem nonTerminal_of_nullable {eps x : T} {ps : List (Production T)} (h : Nullable eps ps x) :
    IsNonTerminal ps x := by
  by_contra hc
  exact FirstFollow.terminal_not_nullable hc h

/-- **C13**, exactly when it holds: the table has all entries of Algorithm 4.31 iff for every production
`A → α` with nullable `α` and every terminal `a` that can follow `A`, the computed FOLLOW set of `A` or
that of the first symbol of `α` contains `a`, or `α` derives a form that begins with `a`. -/
theorem C13_table_complete_iff (h : HashOrder T) (eps init : T) (ps : List (Production T))
    (g : Grammar T) (hg : Grammar.new h eps init ps = .ok g) (ff : FirstFollow T)
    (hff : Returns (fun n => FirstFollow.from h n g) ff) (t : Transitions T)
    (ht : Transitions.from h g ff = .ok t) :
    (∀ p ∈ ps, ∀ a, Predicts eps ps p a → ∃ l, t.getProductions p.input a = some l ∧ p ∈ l) ↔
    (∀ p ∈ ps, ∀ a, Derives eps ps (rhs eps p) [] → CanFollow eps ps p.input a →
      InComputedFollow ff p.input a ∨ (∃ x r, rhs eps p = x :: r ∧ InComputedFollow ff x a) ∨
      ∃ v, Derives eps ps (rhs eps p) (a :: v)) := by
  constructor
  · intro H p hp a hd hc
    have hm := (mem_cell_iff hg hff ht hp a).1 (H p hp a ⟨hc.1, hc.2.1, .inr ⟨hd, hc⟩⟩)
    rcases hm with ⟨_, h'⟩ | ⟨x, r, hr, h' | ⟨hn, h'⟩⟩
    · exact .inl ((follow_mem_iff hg hff ⟨p, hp, rfl⟩ a).2 h')
    · right; right
      have : StrFirst eps ps (rhs eps p) a := by rw [hr, strFirst_cons]; exact .inl h'
      exact this.derives
    · exact .inr (.inl ⟨x, r, hr, (follow_mem_iff hg hff (nonTerminal_of_nullable hn) a).2 h'⟩)
  · rintro H p hp a ⟨ha, hne, ⟨v, hd⟩ | ⟨hd, hc⟩⟩
    · exact C13_table_first_complete h eps init ps g hg ff hff t ht p hp a ha hne v hd
    · rcases H p hp a hd hc with ⟨s, h1, h2⟩ | ⟨x, r, hr, h'⟩ | ⟨v, hv⟩
      · exact C13_table_computed_follow_complete h eps init ps g hg ff hff t ht p hp a s h1 h2 hd
      · rw [derives_nil_iff, hr, strNullable_cons] at hd
        exact (mem_cell_iff hg hff ht hp a).2 (.inr ⟨x, r, hr, .inr ⟨hd.1,
          (follow_mem_iff hg hff (nonTerminal_of_nullable hd.1) a).1 h'⟩⟩)
      · exact C13_table_first_complete h eps init ps g hg ff hff t ht p hp a ha hne v hv

/-- **C13** from complete FOLLOW sets (C09). -/
theorem C13_table_complete_of_follow (h : HashOrder T) (eps init : T) (ps : List (Production T))
    (g : Grammar T) (hg : Grammar.new h eps init ps = .ok g) (ff : FirstFollow T)
    (hff : Returns (fun n => FirstFollow.from h n g) ff) (t : Transitions T)
    (ht : Transitions.from h g ff = .ok t)
    (hfo : ∀ p ∈ ps, ∀ u X t a, p.output = u ++ X :: X :: t → IsNonTerminal ps X → CanStart eps ps X a →
      InComputedFollow ff X a) :
    ∀ p ∈ ps, ∀ a, Predicts eps ps p a → ∃ l, t.getProductions p.input a = some l ∧ p ∈ l :=
  (C13_table_complete_iff h eps init ps g hg ff hff t ht).2 fun p hp a _ hc =>
    .inl ((C09_follow_complete_iff h eps init ps g hg ff hff).2 hfo p.input a ⟨p, hp, rfl⟩ hc)

/-- **C14**, exactly when it holds: the table has only entries of Algorithm 4.31 iff for every production
whose first symbol `x` is nullable, every terminal in the computed FOLLOW set of `x` predicts it. -/
theorem C14_table_precise_iff (h : HashOrder T) (eps init : T) (ps : List (Production T))
    (g : Grammar T) (hg : Grammar.new h eps init ps = .ok g) (ff : FirstFollow T)
    (hff : Returns (fun n => FirstFollow.from h n g) ff) (t : Transitions T)
    (ht : Transitions.from h g ff = .ok t) :
    (∀ p ∈ ps, ∀ a l, t.getProductions p.input a = some l → p ∈ l → Predicts eps ps p a) ↔
    (∀ p ∈ ps, ∀ x r a, rhs eps p = x :: r → Nullable eps ps x → InComputedFollow ff x a →
      Predicts eps ps p a) := by
  constructor
  · intro H p hp x r a hr hn hf
    obtain ⟨l, h1, h2⟩ := (mem_cell_iff hg hff ht hp a).2 (.inr ⟨x, r, hr, .inr ⟨hn,
      (follow_mem_iff hg hff (nonTerminal_of_nullable hn) a).1 hf⟩⟩)
    exact H p hp a l h1 h2
  · intro H p hp a l h1 h2
    rcases (mem_cell_iff hg hff ht hp a).1 ⟨l, h1, h2⟩ with ⟨hr, h'⟩ | ⟨x, r, hr, h' | ⟨hn, h'⟩⟩
    · have hc := h'.canFollow
      exact ⟨hc.1, hc.2.1, .inr ⟨by rw [hr]; exact .refl _, hc⟩⟩
    · refine ⟨h'.1, h'.2.1, .inl ?_⟩
      have : StrFirst eps ps (rhs eps p) a := by rw [hr, strFirst_cons]; exact .inl h'
      exact this.derives
    · exact H p hp x r a hr hn ((follow_mem_iff hg hff (nonTerminal_of_nullable hn) a).2 h')

/-- `S → X X Y a`, `X → a | b`, `Y → X Y | ε`, with `S = 1, X = 2, Y = 3, a = 10, b = 11`: a grammar with two
equal adjacent non-terminals whose FOLLOW sets are complete all the same. -/
def adjacentPs : List (Production Nat) :=
  [⟨1, [2, 2, 3, 10]⟩, ⟨2, [10]⟩, ⟨2, [11]⟩, ⟨3, [2, 3]⟩, ⟨3, [0]⟩]

/-- The hypotheses of C13 and of `C13_table_complete_of_follow` are met by this grammar. -/
example : ∃ g ff t, Grammar.new (HashOrder.id Nat) 0 1 adjacentPs = .ok g ∧
    Returns (fun n => FirstFollow.from (HashOrder.id Nat) n g) ff ∧
    Transitions.from (HashOrder.id Nat) g ff = .ok t ∧ ¬ NoAdjacentRepeat adjacentPs ∧
    ∀ p ∈ adjacentPs, ∀ u X t a, p.output = u ++ X :: X :: t → IsNonTerminal adjacentPs X →
      CanStart 0 adjacentPs X a → InComputedFollow ff X a := by
  obtain ⟨g, ff, t, hg, hff, ht, h1, h2⟩ : ∃ g ff t, Grammar.new (HashOrder.id Nat) 0 1 adjacentPs = .ok g ∧
      Returns (fun n => FirstFollow.from (HashOrder.id Nat) n g) ff ∧
      Transitions.from (HashOrder.id Nat) g ff = .ok t ∧
      ff.getFirstSymbols 2 = some [10, 11] ∧ ff.getFollowSymbols 2 = some [10, 11] :=
    ⟨_, _, _, rfl, FirstFollow.returns_of_from (n := 5) rfl, rfl, rfl, rfl⟩
  have hX : ∀ p ∈ adjacentPs, ∀ u X t, p.output = u ++ X :: X :: t → X = 2 := by
    intro p hp u X t ho
    have hl := congrArg List.length ho
    simp only [adjacentPs, List.mem_cons, List.not_mem_nil, or_false] at hp
    rcases hp with rfl | rfl | rfl | rfl | rfl <;> rcases u with _ | ⟨_, _ | ⟨_, _ | ⟨_, u⟩⟩⟩ <;>
      simp at ho hl <;> omega
  refine ⟨g, ff, t, hg, hff, ht, ?_, ?_⟩
  · intro hn
    exact hn ⟨1, [2, 2, 3, 10]⟩ (by decide) [] 2 [3, 10] rfl ⟨⟨2, [10]⟩, by decide, rfl⟩
  · intro p hp u X t a ho hnt hs
    obtain rfl := hX p hp u X t ho
    obtain ⟨s, hs1, hs2⟩ := (C05_first_exact _ _ _ _ g hg ff hff 2 hnt a hs.2.1).2 ⟨hs.1, hs.2.2⟩
    rw [h1] at hs1
    obtain rfl := Option.some.inj hs1
    refine ⟨_, h2, ?_⟩
    simp at hs2 ⊢
    omega

end Verif.Props
