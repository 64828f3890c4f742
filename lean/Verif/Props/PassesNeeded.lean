import Verif.Props.FirstFollow
import Verif.Proof.PassesNeeded

/-!
# C64: how many passes are needed
-/

namespace Verif.Props

open Spec

/-- **C64**, lower bound for FIRST: for every `n ≥ 2` there is a grammar with `n` non-terminals, namely
`A₁ → A₂`, …, `Aₙ₋₁ → Aₙ`, `Aₙ → eps | A₁ b`, for which fewer than `2 · n` passes are not enough when the
non-terminals are visited in this order. -/
theorem C64_first_passes_needed (n : Nat) (hn : 2 ≤ n) :
    ∃ g, Grammar.new sortedOrder 0 1 (ladderPs n) = .ok g ∧
      (g.getNonTerminalSymbols sortedOrder).length = n ∧
      ∀ passes < 2 * n, FirstFollow.innerGetFirstSymbols sortedOrder passes g = .fuel ∧
        FirstFollow.from sortedOrder passes g = .fuel := by
  obtain ⟨g, hg⟩ := (Grammar.new_eq_ok_iff sortedOrder 0 1 (ladderPs n)).2
    (FirstFollow.wellFormed_ladder hn)
  have G := Grammar.grammarOf_of_new hg
  refine ⟨g, hg, by rw [FirstFollow.nonTerminals_ladder hn G, List.length_range'], fun passes hp => ?_⟩
  have := FirstFollow.first_ladder hn G passes hp
  exact ⟨this, by unfold FirstFollow.from; rw [this]; rfl⟩

/-- **C64**, lower bound for FOLLOW: for every `n ≥ 1` there is a grammar with `n` non-terminals, namely
`A₁ → c`, `A₂ → A₁`, …, `Aₙ → Aₙ₋₁ | Aₙ b`, for which `n` passes are not enough when the non-terminals are
visited in this order: the bound `n + 1` is exact. -/
theorem C64_follow_passes_needed (n : Nat) (hn : 1 ≤ n) :
    ∃ g ff, Grammar.new sortedOrder 0 1 (stairsPs n) = .ok g ∧
      (g.getNonTerminalSymbols sortedOrder).length = n ∧
      Returns (fun k => FirstFollow.from sortedOrder k g) ff ∧
      (∀ passes ≤ n, FirstFollow.innerGetFollowSymbols sortedOrder passes g ff.firstSymbols = .fuel) ∧
      FirstFollow.innerGetFollowSymbols sortedOrder (n + 1) g ff.firstSymbols = .ok ff.followSymbols := by
  obtain ⟨g, hg⟩ := (Grammar.new_eq_ok_iff sortedOrder 0 1 (stairsPs n)).2
    (FirstFollow.wellFormed_stairs hn)
  have G := Grammar.grammarOf_of_new hg
  obtain ⟨ff, hff⟩ := C04_first_follow_returns sortedOrder 0 1 _ g hg
  have hlen : (g.getNonTerminalSymbols sortedOrder).length = n := by
    rw [FirstFollow.nonTerminals_stairs hn G, List.length_range']
  refine ⟨g, ff, hg, hlen, hff, fun passes hp => ?_,
    C64_follow_passes sortedOrder 0 1 _ g hg ff hff (n + 1) (by omega)⟩
  exact FirstFollow.follow_stairs hn G (first_follow_spec hg hff).1 passes hp

/-- For `n = 3`: `A₁ → A₂`, `A₂ → A₃`, `A₃ → eps | A₁ b` needs six passes for FIRST; `A₁ → c`, `A₂ → A₁`,
`A₃ → A₂ | A₃ b`. -/
example : ladderPs 3 = [⟨1, [2]⟩, ⟨2, [3]⟩, ⟨3, [0]⟩, ⟨3, [1, 4]⟩] ∧
    stairsPs 3 = [⟨1, [5]⟩, ⟨2, [1]⟩, ⟨3, [2]⟩, ⟨3, [3, 4]⟩] := ⟨rfl, rfl⟩

end Verif.Props
