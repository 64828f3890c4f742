import Verif.Proof.Passes
import Verif.Spec.Ladder
import Mathlib.Data.List.Sort

/-!
# Grammars for which FIRST and FOLLOW need many passes

For the ladder `A₁ → A₂`, …, `Aₙ₋₁ → Aₙ`, `Aₙ → eps`, `Aₙ → A₁ b`, visited in the order `A₁, …, Aₙ`, the set
of `Aₖ` after `j` passes is known exactly.
-/

namespace Verif

open Spec

namespace FirstFollow

theorem isNonTerminal_ladder {n : Nat} (hn : 2 ≤ n) (x : Nat) :
    IsNonTerminal (ladderPs n) x ↔ 1 ≤ x ∧ x ≤ n := by
  unfold IsNonTerminal ladderPs
  simp only [List.mem_append, List.mem_map, List.mem_range', List.mem_cons, List.not_mem_nil, or_false]
  constructor
  · rintro ⟨p, ⟨k, ⟨i, hi, rfl⟩, rfl⟩ | rfl | rfl, rfl⟩ <;> simp <;> omega
  · rintro ⟨h1, h2⟩
    by_cases h : x = n
    · subst h; exact ⟨_, .inr (.inl rfl), rfl⟩
    · exact ⟨⟨x, [x + 1]⟩, .inl ⟨x, ⟨x - 1, by omega, by omega⟩, rfl⟩, rfl⟩

theorem wellFormed_ladder {n : Nat} (hn : 2 ≤ n) : WellFormed 0 (ladderPs n) := by
  unfold WellFormed ladderPs
  simp only [List.mem_append, List.mem_map, List.mem_range', List.mem_cons, List.not_mem_nil, or_false]
  rintro p (⟨k, ⟨i, hi, rfl⟩, rfl⟩ | rfl | rfl) <;> simp <;> omega

theorem filter_ladder {n : Nat} (hn : 2 ≤ n) {k : Nat} (h1 : 1 ≤ k) (h2 : k ≤ n) :
    (ladderPs n).filter (·.input = k) =
      if k = n then [⟨n, [0]⟩, ⟨n, [1, n + 1]⟩] else [⟨k, [k + 1]⟩] := by
  unfold ladderPs
  rw [List.filter_append, List.filter_map]
  have hf : ∀ (l : List Nat), l.Nodup →
      (l.filter ((fun q : Production Nat => decide (q.input = k)) ∘ fun j => ⟨j, [j + 1]⟩)) =
      if k ∈ l then [k] else [] := by
    intro l hl
    induction l with
    | nil => rfl
    | cons y l ih =>
      rw [List.nodup_cons] at hl
      rw [List.filter_cons, ih hl.2]
      by_cases e : y = k
      · subst e; simp [hl.1]
      · simp [e, Ne.symm e]
  rw [hf _ (List.nodup_range' _)]
  by_cases e : k = n
  · subst e
    rw [if_neg (by simp [List.mem_range']; omega)]
    simp
  · rw [if_pos (by simp only [List.mem_range']; exact ⟨k - 1, by omega, by omega⟩), if_neg e]
    simp [Ne.symm e]

/-- The FIRST set of the `k`-th non-terminal after `j` passes, for `s = k + j`. -/
def rung (n s : Nat) : List Nat :=
  (if n + 1 ≤ s then [0] else []) ++ (if 2 * n ≤ s then [n + 1] else [])

theorem rung_low {n s : Nat} (hn : 2 ≤ n) (h : s < n + 1) : rung n s = [] := by
  unfold rung
  rw [if_neg (by omega), if_neg (by omega)]; rfl

theorem rung_mid {n s : Nat} (h : n + 1 ≤ s) (h' : s < 2 * n) : rung n s = [0] := by
  unfold rung
  rw [if_pos (by omega), if_neg (by omega)]; rfl

theorem rung_high {n s : Nat} (hn : 2 ≤ n) (h : 2 * n ≤ s) : rung n s = [0, n + 1] := by
  unfold rung
  rw [if_pos (by omega), if_pos (by omega)]; rfl

theorem rung_cases {n : Nat} (hn : 2 ≤ n) (s : Nat) :
    (s < n + 1 ∧ rung n s = []) ∨ (n + 1 ≤ s ∧ s < 2 * n ∧ rung n s = [0]) ∨
      (2 * n ≤ s ∧ rung n s = [0, n + 1]) := by
  by_cases h1 : s < n + 1
  · exact .inl ⟨h1, rung_low hn h1⟩
  · by_cases h2 : s < 2 * n
    · exact .inr (.inl ⟨by omega, h2, rung_mid (by omega) h2⟩)
    · exact .inr (.inr ⟨by omega, rung_high hn (by omega)⟩)

variable {n : Nat} {g : Grammar Nat}

theorem processProductions_rung (hn : 2 ≤ n) (G : GrammarOf 0 1 (ladderPs n) g) {m : SymbolsMap Nat}
    {k j : Nat} (h1 : 1 ≤ k) (h2 : k < n) (hm : m.get (k + 1) = some (rung n (k + 1 + j))) :
    ∃ u, processProductions sortedOrder g m k (rung n (k + j)) [⟨k, [k + 1]⟩] =
      .ok (rung n (k + (j + 1)), u) := by
  have hnt : g.isNonTerminal (k + 1) = true := by
    rw [isNT_iff G, isNonTerminal_ladder hn]; omega
  have he : g.epsilonSymbol = 0 := G.eps_eq
  have ho : ∀ l, sortedOrder.ord (.first (k + 1)) l = l := fun _ => rfl
  rcases rung_cases hn (k + j) with ⟨a1, a2⟩ | ⟨a1, a2, a3⟩ | ⟨a1, a2⟩ <;>
  rcases rung_cases hn (k + 1 + j) with ⟨b1, b2⟩ | ⟨b1, b2, b3⟩ | ⟨b1, b2⟩ <;>
  first
  | omega
  | (simp only [*, show k + (j + 1) = k + 1 + j by omega]
     simp_all [processProductions, processProduction, processSymbols, processSymbol,
       processNonTerminalSymbol, borrowWhile, insertMany, hsInsert])

theorem processProductions_top (hn : 2 ≤ n) (G : GrammarOf 0 1 (ladderPs n) g) {m : SymbolsMap Nat}
    {j : Nat} (hm : m.get 1 = some (rung n (1 + (j + 1)))) :
    ∃ u, processProductions sortedOrder g m n (rung n (n + j)) [⟨n, [0]⟩, ⟨n, [1, n + 1]⟩] =
      .ok (rung n (n + (j + 1)), u) := by
  have hnt : g.isNonTerminal 1 = true := by rw [isNT_iff G, isNonTerminal_ladder hn]; omega
  have hnt0 : g.isNonTerminal 0 = false := by
    rw [Bool.eq_false_iff, Ne, isNT_iff G, isNonTerminal_ladder hn]; omega
  have hnt1 : g.isNonTerminal (n + 1) = false := by
    rw [Bool.eq_false_iff, Ne, isNT_iff G, isNonTerminal_ladder hn]; omega
  have he : g.epsilonSymbol = 0 := G.eps_eq
  have ho : ∀ l, sortedOrder.ord (.first 1) l = l := fun _ => rfl
  have d1 : (0 : Nat) ≠ n := by omega
  have d2 : (1 : Nat) ≠ n := by omega
  rcases rung_cases hn (n + j) with ⟨a1, a2⟩ | ⟨a1, a2, a3⟩ | ⟨a1, a2⟩ <;>
  rcases rung_cases hn (n + (j + 1)) with ⟨b1, b2⟩ | ⟨b1, b2, b3⟩ | ⟨b1, b2⟩ <;>
  rcases rung_cases hn (1 + (j + 1)) with ⟨c1, c2⟩ | ⟨c1, c2, c3⟩ | ⟨c1, c2⟩ <;>
  first
  | omega
  | (simp only [*]
     simp_all [processProductions, processProduction, processSymbols, processSymbol,
       processNonTerminalSymbol, borrowWhile, insertMany, hsInsert])

theorem range'_cons_of_le {k n : Nat} (h : k ≤ n) :
    List.range' k (n + 1 - k) = k :: List.range' (k + 1) (n + 1 - (k + 1)) := by
  rw [show n + 1 - k = (n + 1 - (k + 1)) + 1 by omega, List.range'_succ]

/-- One pass, from the `k`-th non-terminal on. -/
theorem firstRoundLoop_ladder (hn : 2 ≤ n) (G : GrammarOf 0 1 (ladderPs n) g) {j : Nat}
    (k : Nat) (h1 : 1 ≤ k) (h2 : k ≤ n + 1) (m : SymbolsMap Nat)
    (hold : ∀ i, 1 ≤ i → i < k → m.get i = some (rung n (i + (j + 1))))
    (hnew : ∀ i, k ≤ i → i ≤ n → m.get i = some (rung n (i + j))) :
    ∃ m' u, firstRoundLoop sortedOrder g (List.range' k (n + 1 - k)) m = .ok (m', u) ∧
      ∀ i, 1 ≤ i → i ≤ n → m'.get i = some (rung n (i + (j + 1))) := by
  generalize hd : n + 1 - k = d
  induction d generalizing k m with
  | zero =>
    refine ⟨m, false, ?_, fun i hi hi' => hold i hi (by omega)⟩
    simp [firstRoundLoop]
  | succ d ih =>
    have hk : k ≤ n := by omega
    have hpr : g.getProductions k = some ((ladderPs n).filter (·.input = k)) := by
      rw [G.prods, if_pos (show ∃ p ∈ ladderPs n, p.input = k from (isNonTerminal_ladder hn k).2 ⟨h1, hk⟩)]
    rw [filter_ladder hn h1 hk] at hpr
    obtain ⟨u, hu⟩ : ∃ u, processProductions sortedOrder g m k (rung n (k + j))
        (if k = n then [⟨n, [0]⟩, ⟨n, [1, n + 1]⟩] else [⟨k, [k + 1]⟩]) =
        .ok (rung n (k + (j + 1)), u) := by
      by_cases e : k = n
      · subst e
        rw [if_pos rfl]
        exact processProductions_top hn G (hold 1 (by omega) (by omega))
      · rw [if_neg e]
        exact processProductions_rung hn G h1 (by omega) (by
          rw [show k + 1 + j = (k + 1) + j from rfl]; exact hnew (k + 1) (by omega) (by omega))
    obtain ⟨m', u', e1, e2⟩ := ih (k + 1) (by omega) (by omega) (m.insert k (rung n (k + (j + 1))))
      (by
        intro i hi hi'
        rw [HMap.get_insert]
        split
        · rename_i e; subst e; rfl
        · exact hold i hi (by omega))
      (by
        intro i hi hi'
        rw [HMap.get_insert, if_neg (by omega)]
        exact hnew i (by omega) hi')
      (by omega)
    refine ⟨m', u || u', ?_, e2⟩
    rw [← hd, range'_cons_of_le hk]
    have hd' : n + 1 - (k + 1) = d := by omega
    simp only [firstRoundLoop, hpr, hnew k (by omega) hk, Out.unwrap, Out.bind_ok, hu, hd', e1]

theorem nonTerminals_ladder (hn : 2 ≤ n) (G : GrammarOf 0 1 (ladderPs n) g) :
    g.getNonTerminalSymbols sortedOrder = List.range' 1 n := by
  unfold Grammar.getNonTerminalSymbols
  show g.nonTerminalSymbolsSet.mergeSort = _
  apply List.Perm.eq_of_pairwise (le := (· ≤ ·)) (fun a b _ _ h h' => Nat.le_antisymm h h')
  · have := List.pairwise_mergeSort (le := fun a b : Nat => decide (a ≤ b))
      (by simp; omega) (by simp; omega) g.nonTerminalSymbolsSet
    simpa using this
  · exact List.pairwise_le_range'
  · refine (List.mergeSort_perm _ _).trans ?_
    rw [List.perm_ext_iff_of_nodup G.nodup_nts (List.nodup_range' _)]
    intro x
    rw [G.mem_nts, isNonTerminal_ladder hn, List.mem_range']
    constructor
    · rintro ⟨h1, h2⟩; exact ⟨x - 1, by omega, by omega⟩
    · rintro ⟨i, h1, rfl⟩; omega

theorem converge_ladder (hn : 2 ≤ n) (G : GrammarOf 0 1 (ladderPs n) g) (m : SymbolsMap Nat)
    (I : FirstInv 0 (ladderPs n) m) (j : Nat)
    (hm : ∀ i, 1 ≤ i → i ≤ n → m.get i = some (rung n (i + j))) (fuel : Nat)
    (hf : fuel + j ≤ 2 * n - 1) :
    converge (firstRoundLoop sortedOrder g (List.range' 1 n)) fuel m = .fuel := by
  induction fuel generalizing m j with
  | zero => rfl
  | succ fuel ih =>
    have hnts : ∀ x, x ∈ List.range' 1 n ↔ IsNonTerminal (ladderPs n) x := by
      intro x
      rw [isNonTerminal_ladder hn, List.mem_range']
      constructor
      · rintro ⟨i, h1, rfl⟩; omega
      · rintro ⟨h1, h2⟩; exact ⟨x - 1, by omega, by omega⟩
    obtain ⟨m1, u1, e1, I1, g1, _⟩ := firstRoundLoop_spec sortedOrder G (List.range' 1 n)
      (List.range' 1 n) hnts (fun x hx => (hnts x).1 hx) m I
    obtain ⟨m2, u2, e2, h2⟩ := firstRoundLoop_ladder hn G (j := j) 1 (by omega) (by omega) m
      (fun i a b => by omega) (fun i a b => hm i a b)
    rw [show n + 1 - 1 = n by omega, e1] at e2
    obtain ⟨rfl, rfl⟩ : m1 = m2 ∧ u1 = u2 := by simpa using e2
    have hu : u1 = true := by
      cases u1 with
      | true => rfl
      | false =>
        exfalso
        have hs := g1.same rfl
        by_cases hj : j < n
        · have a := hm (n - j) (by omega) (by omega)
          have b := h2 (n - j) (by omega) (by omega)
          rw [hs, a, rung_low hn (by omega), rung_mid (by omega) (by omega)] at b
          simp at b
        · have a := hm (2 * n - 1 - j) (by omega) (by omega)
          have b := h2 (2 * n - 1 - j) (by omega) (by omega)
          rw [hs, a, rung_mid (by omega) (by omega), rung_high hn (by omega)] at b
          simp at b
    subst hu
    simp only [converge, e1, Out.bind_ok, if_true]
    exact ih m1 I1 (j + 1) h2 (by omega)

/-- Fewer than `2 n` passes are not enough for FIRST of the ladder. -/
theorem first_ladder (hn : 2 ≤ n) (G : GrammarOf 0 1 (ladderPs n) g) (fuel : Nat)
    (hf : fuel < 2 * n) : innerGetFirstSymbols sortedOrder fuel g = .fuel := by
  have I := firstInv_initial sortedOrder G
  unfold innerGetFirstSymbols
  rw [nonTerminals_ladder hn G] at I ⊢
  refine converge_ladder hn G _ I 0 (fun i h1 h2 => ?_) fuel (by omega)
  rw [firstInitialMap_get, if_neg, if_pos, rung_low hn (by omega)]
  · rw [List.mem_range']; exact ⟨i - 1, by omega, by omega⟩
  · rw [Grammar.getTerminalSymbols, sortedOrder.mem_ord, G.mem_ts]
    exact fun h => h.2 ((isNonTerminal_ladder hn i).2 ⟨h1, h2⟩)

end FirstFollow

/-! ## FOLLOW -/

namespace FirstFollow

theorem isNonTerminal_stairs {n : Nat} (hn : 1 ≤ n) (x : Nat) :
    IsNonTerminal (stairsPs n) x ↔ 1 ≤ x ∧ x ≤ n := by
  unfold IsNonTerminal stairsPs
  simp only [List.mem_append, List.mem_map, List.mem_range', List.mem_cons, List.not_mem_nil, or_false]
  constructor
  · rintro ⟨p, (rfl | ⟨k, ⟨i, hi, rfl⟩, rfl⟩) | rfl, rfl⟩ <;> simp only <;> omega
  · rintro ⟨h1, h2⟩
    by_cases h : x = 1
    · subst h; exact ⟨_, .inl (.inl rfl), rfl⟩
    · exact ⟨⟨x, [x - 1]⟩, .inl (.inr ⟨x, ⟨x - 2, by omega, by omega⟩, rfl⟩), rfl⟩

theorem wellFormed_stairs {n : Nat} (hn : 1 ≤ n) : WellFormed 0 (stairsPs n) := by
  unfold WellFormed stairsPs
  simp only [List.mem_append, List.mem_map, List.mem_range', List.mem_cons, List.not_mem_nil, or_false]
  rintro p ((rfl | ⟨k, ⟨i, hi, rfl⟩, rfl⟩) | rfl) <;> simp <;> omega

theorem filter_stairs {n : Nat} {k : Nat} (h1 : 1 ≤ k) (h2 : k ≤ n) :
    (stairsPs n).filter (·.input = k) =
      (if k = 1 then ⟨1, [n + 2]⟩ else ⟨k, [k - 1]⟩) :: (if k = n then [⟨n, [n, n + 1]⟩] else []) := by
  unfold stairsPs
  rw [List.filter_append, List.filter_cons, List.filter_map]
  have hf : ∀ (l : List Nat), l.Nodup →
      (l.filter ((fun q : Production Nat => decide (q.input = k)) ∘ fun j => ⟨j, [j - 1]⟩)) =
      if k ∈ l then [k] else [] := by
    intro l hl
    induction l with
    | nil => rfl
    | cons y l ih =>
      rw [List.nodup_cons] at hl
      rw [List.filter_cons, ih hl.2]
      by_cases e : y = k
      · subst e; simp [hl.1]
      · simp [e, Ne.symm e]
  rw [hf _ (List.nodup_range' _)]
  have hr : k ∈ List.range' 2 (n - 1) ↔ k ≠ 1 := by
    rw [List.mem_range']
    constructor
    · rintro ⟨i, _, rfl⟩; omega
    · intro h; exact ⟨k - 2, by omega, by omega⟩
  simp only [hr]
  by_cases e : k = 1
  · subst e
    by_cases e' : n = 1
    · subst e'; simp
    · simp [e', Ne.symm e']
  · by_cases e' : n = k
    · subst e'; simp [e, Ne.symm e]
    · simp [e, e', Ne.symm e', Ne.symm e]

/-- The FOLLOW set of the `k`-th non-terminal after `j` passes, for `s = k + j`. -/
def stair (n s : Nat) : List Nat := if n + 1 ≤ s then [n + 1] else []

variable {n : Nat} {g : Grammar Nat} {fm : SymbolsMap Nat}

/-- The production `Aₖ → Aₖ₋₁`. -/
theorem followProduction_stairs (hn : 1 ≤ n) (G : GrammarOf 0 1 (stairsPs n) g)
    (FS : FirstSpec 0 (stairsPs n) fm) {m : SymbolsMap Nat} {k j : Nat} (h1 : 2 ≤ k) (h2 : k ≤ n)
    (hm : m.get k = some (stair n (k + j))) (hm' : m.get (k - 1) = some (stair n (k - 1 + j))) :
    ∃ u, followProduction sortedOrder g fm ⟨k, [k - 1]⟩ m =
      .ok (m.insert (k - 1) (stair n (k - 1 + (j + 1))), u) := by
  have hnt : IsNonTerminal (stairsPs n) (k - 1) := (isNonTerminal_stairs hn _).2 ⟨by omega, by omega⟩
  have hnt' := (isNT_iff G _).2 hnt
  have hfm := FS.inv.get_some (.inl hnt)
  have d1 : k - 1 ≠ k := by omega
  have ho : ∀ l, sortedOrder.ord (.follow k) l = l := fun _ => rfl
  have e : k - 1 + (j + 1) = k + j := by omega
  rw [e]
  unfold stair at hm hm' ⊢
  by_cases c : n + 1 ≤ k + j
  · rw [if_pos c] at hm ⊢
    by_cases c' : n + 1 ≤ k - 1 + j
    · rw [if_pos c'] at hm'
      simp [followProduction, lastEpsilonChain, lastIndex, lastEpsilonChainLoop, followFromInput, Out.unwrap,
        borrowWhile, hnt', hfm, hm, hm', ho, d1, insertMany, hsInsert]
    · rw [if_neg c'] at hm'
      simp [followProduction, lastEpsilonChain, lastIndex, lastEpsilonChainLoop, followFromInput, Out.unwrap,
        borrowWhile, hnt', hfm, hm, hm', ho, d1, insertMany, hsInsert]
  · rw [if_neg c] at hm ⊢
    rw [if_neg (by omega)] at hm'
    simp [followProduction, lastEpsilonChain, lastIndex, lastEpsilonChainLoop, followFromInput, Out.unwrap,
      borrowWhile, hnt', hfm, hm, hm', ho, d1, insertMany]

/-- The production `A₁ → c`. -/
theorem followProduction_bottom (hn : 1 ≤ n) (G : GrammarOf 0 1 (stairsPs n) g)
    (FS : FirstSpec 0 (stairsPs n) fm) (m : SymbolsMap Nat) :
    followProduction sortedOrder g fm ⟨1, [n + 2]⟩ m = .ok (m, false) := by
  have hnt : g.isNonTerminal (n + 2) = false := by
    rw [Bool.eq_false_iff, Ne, isNT_iff G, isNonTerminal_stairs hn]; omega
  have hfm := FS.inv.term (n + 2) ⟨⟨⟨1, [n + 2]⟩, by simp [stairsPs], by simp⟩, by
    rw [isNonTerminal_stairs hn]; omega⟩
  simp [followProduction, lastEpsilonChain, lastIndex, lastEpsilonChainLoop, followFromInput, Out.unwrap,
    hnt, hfm]

/-- The production `Aₙ → Aₙ b`. -/
theorem followProduction_top (hn : 1 ≤ n) (G : GrammarOf 0 1 (stairsPs n) g)
    (FS : FirstSpec 0 (stairsPs n) fm) {m : SymbolsMap Nat} {j : Nat}
    (hm : m.get n = some (stair n (n + j))) :
    ∃ u, followProduction sortedOrder g fm ⟨n, [n, n + 1]⟩ m =
      .ok (m.insert n (stair n (n + (j + 1))), u) := by
  have hnt : g.isNonTerminal (n + 1) = false := by
    rw [Bool.eq_false_iff, Ne, isNT_iff G, isNonTerminal_stairs hn]; omega
  have hnt' : g.isNonTerminal n = true := by rw [isNT_iff G, isNonTerminal_stairs hn]; omega
  have hfm := FS.inv.term (n + 1) ⟨⟨⟨n, [n, n + 1]⟩, by simp [stairsPs], by simp⟩, by
    rw [isNonTerminal_stairs hn]; omega⟩
  have he : g.epsilonSymbol = 0 := G.eps_eq
  have ho : ∀ l, sortedOrder.ord (.first (n + 1)) l = l := fun _ => rfl
  have hs : stair n (n + (j + 1)) = [n + 1] := by unfold stair; rw [if_pos (by omega)]
  rw [hs]
  unfold stair at hm
  by_cases c : n + 1 ≤ n + j
  · rw [if_pos c] at hm
    simp [followProduction, lastEpsilonChain, lastIndex, lastEpsilonChainLoop, followFromInput, Out.unwrap,
      hnt, hnt', hfm, he, ho, followLoop, followSymbol, followNonTerminalSymbol, updateLambdaChain, hm,
      insertMany, hsInsert]
  · rw [if_neg c] at hm
    simp [followProduction, lastEpsilonChain, lastIndex, lastEpsilonChainLoop, followFromInput, Out.unwrap,
      hnt, hnt', hfm, he, ho, followLoop, followSymbol, followNonTerminalSymbol, updateLambdaChain, hm,
      insertMany, hsInsert]

/-- The productions of the `k`-th non-terminal: the set of the one before is done for this pass. -/
theorem followProductions_stairs (hn : 1 ≤ n) (G : GrammarOf 0 1 (stairsPs n) g)
    (FS : FirstSpec 0 (stairsPs n) fm) {j k : Nat} (h1 : 1 ≤ k) (h2 : k ≤ n) (m : SymbolsMap Nat)
    (hold : ∀ i, 1 ≤ i → i + 1 < k → m.get i = some (stair n (i + (j + 1))))
    (hnew : ∀ i, 1 ≤ i → k ≤ i + 1 → i ≤ n → m.get i = some (stair n (i + j))) :
    ∃ m' u, followProductions sortedOrder g fm ((if k = 1 then ⟨1, [n + 2]⟩ else ⟨k, [k - 1]⟩) ::
        (if k = n then [⟨n, [n, n + 1]⟩] else [])) m = .ok (m', u) ∧
      (∀ i, 1 ≤ i → (i < k ∨ k = n ∧ i ≤ n) → m'.get i = some (stair n (i + (j + 1)))) ∧
      (k ≠ n → ∀ i, k ≤ i → i ≤ n → m'.get i = some (stair n (i + j))) := by
  obtain ⟨m1, u1, e1, o1, n1⟩ : ∃ m1 u1, followProduction sortedOrder g fm
      (if k = 1 then ⟨1, [n + 2]⟩ else ⟨k, [k - 1]⟩) m = .ok (m1, u1) ∧
      (∀ i, 1 ≤ i → i < k → m1.get i = some (stair n (i + (j + 1)))) ∧
      (∀ i, k ≤ i → i ≤ n → m1.get i = some (stair n (i + j))) := by
    by_cases c : k = 1
    · subst c
      rw [if_pos rfl]
      exact ⟨m, false, followProduction_bottom hn G FS m, fun i a b => by omega,
        fun i a b => hnew i a (by omega) b⟩
    · rw [if_neg c]
      obtain ⟨u, hu⟩ := followProduction_stairs hn G FS (j := j) (k := k) (m := m) (by omega) h2
        (hnew k h1 (by omega) h2) (hnew (k - 1) (by omega) (by omega) (by omega))
      refine ⟨_, u, hu, fun i a b => ?_, fun i a b => ?_⟩
      · rw [HMap.get_insert]
        split
        · rename_i e; subst e; rfl
        · exact hold i a (by omega)
      · rw [HMap.get_insert, if_neg (by omega)]
        exact hnew i (by omega) (by omega) b
  by_cases c : k = n
  · subst c
    obtain ⟨u, hu⟩ := followProduction_top hn G FS (j := j) (m := m1) (n1 k (by omega) (by omega))
    refine ⟨m1.insert k (stair k (k + (j + 1))), u1 || (u || false), ?_, fun i a b => ?_,
      fun h => absurd rfl h⟩
    · rw [if_pos (rfl : k = k)]
      simp only [followProductions, e1, hu, Out.bind_ok]
    · rw [HMap.get_insert]
      split
      · rename_i e; subst e; rfl
      · exact o1 i a (by omega)
  · refine ⟨m1, u1 || false, ?_, fun i a b => o1 i a (by omega), fun _ => n1⟩
    rw [if_neg c]
    simp only [followProductions, e1, Out.bind_ok]

/-- One pass, from the `k`-th non-terminal on. -/
theorem followRoundLoop_stairs (hn : 1 ≤ n) (G : GrammarOf 0 1 (stairsPs n) g)
    (FS : FirstSpec 0 (stairsPs n) fm) {j : Nat} (k : Nat) (h1 : 1 ≤ k) (h2 : k ≤ n) (m : SymbolsMap Nat)
    (hold : ∀ i, 1 ≤ i → i + 1 < k → m.get i = some (stair n (i + (j + 1))))
    (hnew : ∀ i, 1 ≤ i → k ≤ i + 1 → i ≤ n → m.get i = some (stair n (i + j))) :
    ∃ m' u, followRoundLoop sortedOrder g fm (List.range' k (n + 1 - k)) m = .ok (m', u) ∧
      ∀ i, 1 ≤ i → i ≤ n → m'.get i = some (stair n (i + (j + 1))) := by
  generalize hd : n - k = d
  induction d generalizing k m with
  | zero =>
    obtain rfl : k = n := by omega
    have hpr : g.getProductions k = some ((stairsPs k).filter (·.input = k)) := by
      rw [G.prods, if_pos (show ∃ p ∈ stairsPs k, p.input = k from (isNonTerminal_stairs hn k).2 ⟨h1, h2⟩)]
    rw [filter_stairs h1 h2] at hpr
    obtain ⟨m', u, e, o, _⟩ := followProductions_stairs hn G FS h1 h2 m hold hnew
    refine ⟨m', u || false, ?_, fun i a b => o i a (.inr ⟨rfl, b⟩)⟩
    rw [show k + 1 - k = 1 by omega, List.range'_succ]
    rw [if_pos (rfl : k = k)] at hpr e
    simp only [followRoundLoop, hpr, Out.unwrap, Out.bind_ok, e, List.range'_zero]
  | succ d ih =>
    have hpr : g.getProductions k = some ((stairsPs n).filter (·.input = k)) := by
      rw [G.prods, if_pos (show ∃ p ∈ stairsPs n, p.input = k from (isNonTerminal_stairs hn k).2 ⟨h1, h2⟩)]
    rw [filter_stairs h1 h2] at hpr
    obtain ⟨m1, u1, e1, o1, n1⟩ := followProductions_stairs hn G FS h1 h2 m hold hnew
    obtain ⟨m', u', e2, e3⟩ := ih (k + 1) (by omega) (by omega) m1
      (fun i a b => o1 i a (.inl (by omega))) (fun i a b c => n1 (by omega) i (by omega) c) (by omega)
    refine ⟨m', u1 || u', ?_, e3⟩
    rw [range'_cons_of_le h2]
    simp only [followRoundLoop, hpr, Out.unwrap, Out.bind_ok, e1, e2]

theorem nonTerminals_stairs (hn : 1 ≤ n) (G : GrammarOf 0 1 (stairsPs n) g) :
    g.getNonTerminalSymbols sortedOrder = List.range' 1 n := by
  unfold Grammar.getNonTerminalSymbols
  show g.nonTerminalSymbolsSet.mergeSort = _
  apply List.Perm.eq_of_pairwise (le := (· ≤ ·)) (fun a b _ _ h h' => Nat.le_antisymm h h')
  · have := List.pairwise_mergeSort (le := fun a b : Nat => decide (a ≤ b))
      (by simp; omega) (by simp; omega) g.nonTerminalSymbolsSet
    simpa using this
  · exact List.pairwise_le_range'
  · refine (List.mergeSort_perm _ _).trans ?_
    rw [List.perm_ext_iff_of_nodup G.nodup_nts (List.nodup_range' _)]
    intro x
    rw [G.mem_nts, isNonTerminal_stairs hn, List.mem_range']
    constructor
    · rintro ⟨h1, h2⟩; exact ⟨x - 1, by omega, by omega⟩
    · rintro ⟨i, h1, rfl⟩; omega

theorem converge_stairs (hn : 1 ≤ n) (G : GrammarOf 0 1 (stairsPs n) g)
    (FS : FirstSpec 0 (stairsPs n) fm) (m : SymbolsMap Nat) (I : FollowInv 0 (stairsPs n) m) (j : Nat)
    (hm : ∀ i, 1 ≤ i → i ≤ n → m.get i = some (stair n (i + j))) (fuel : Nat) (hf : fuel + j ≤ n) :
    converge (followRoundLoop sortedOrder g fm (List.range' 1 n)) fuel m = .fuel := by
  induction fuel generalizing m j with
  | zero => rfl
  | succ fuel ih =>
    have hnts : ∀ x, x ∈ List.range' 1 n ↔ IsNonTerminal (stairsPs n) x := by
      intro x
      rw [isNonTerminal_stairs hn, List.mem_range']
      constructor
      · rintro ⟨i, h1, rfl⟩; omega
      · rintro ⟨h1, h2⟩; exact ⟨x - 1, by omega, by omega⟩
    obtain ⟨m1, u1, e1, I1, g1, _⟩ := followRoundLoop_spec sortedOrder G (List.range' 1 n)
      (List.range' 1 n) hnts (fun x hx => (hnts x).1 hx) FS m I
    obtain ⟨m2, u2, e2, h2⟩ := followRoundLoop_stairs hn G FS (j := j) 1 (by omega) (by omega) m
      (fun i a b => by omega) (fun i a _ b => hm i a b)
    rw [show n + 1 - 1 = n by omega, e1] at e2
    obtain ⟨rfl, rfl⟩ : m1 = m2 ∧ u1 = u2 := by simpa using e2
    have hu : u1 = true := by
      cases u1 with
      | true => rfl
      | false =>
        exfalso
        have a := hm (n - j) (by omega) (by omega)
        have b := h2 (n - j) (by omega) (by omega)
        rw [g1.same rfl, a] at b
        unfold stair at b
        rw [if_neg (by omega), if_pos (by omega)] at b
        simp at b
    subst hu
    simp only [converge, e1, Out.bind_ok, if_true]
    exact ih m1 I1 (j + 1) h2 (by omega)

/-- `n` passes are not enough for FOLLOW of the stairs. -/
theorem follow_stairs (hn : 1 ≤ n) (G : GrammarOf 0 1 (stairsPs n) g) (FS : FirstSpec 0 (stairsPs n) fm)
    (fuel : Nat) (hf : fuel ≤ n) : innerGetFollowSymbols sortedOrder fuel g fm = .fuel := by
  have hget0 : ∀ x, (HMap.fromIter ((List.range' 1 n).map (fun x => (x, ([] : List Nat))))).get x
      = if x ∈ List.range' 1 n then some [] else none := fun x => HMap.get_fromIter_map _ _ _
  have hlk : ∀ x, look (HMap.fromIter ((List.range' 1 n).map (fun x => (x, ([] : List Nat))))) x = [] := by
    intro x; unfold look; rw [hget0]; split <;> simp
  have hmem : ∀ x, x ∈ List.range' 1 n ↔ IsNonTerminal (stairsPs n) x := by
    intro x
    rw [← nonTerminals_stairs hn G, Grammar.getNonTerminalSymbols, sortedOrder.mem_ord, G.mem_nts]
  unfold innerGetFollowSymbols
  rw [nonTerminals_stairs hn G]
  refine converge_stairs hn G FS _ ⟨fun x => ?_, fun x => ?_, fun x a ha => ?_⟩ 0 (fun i h1 h2 => ?_)
    fuel (by omega)
  · rw [hget0]
    by_cases h' : IsNonTerminal (stairsPs n) x <;> simp only [hmem, h', if_true, if_false] <;> simp
  · rw [hlk]; simp
  · rw [hlk] at ha; simp at ha
  · rw [hget0, if_pos ((hmem i).2 ((isNonTerminal_stairs hn i).2 ⟨h1, h2⟩))]
    unfold stair
    rw [if_neg (by omega)]

end FirstFollow
end Verif
