import Verif.Proof.Passes
import Verif.Spec.Examples

/-!
# Properties C04–C10 and the FIRST/FOLLOW half of C11
-/

set_option linter.unusedSectionVars false

namespace Verif.Props

open Verif.Spec Verif.Examples

variable {T : Type} [DecidableEq T]

theorem Returns.det {α : Type} {f : Nat → Out α} {a b : α} (ha : Returns f a) (hb : Returns f b) :
    a = b := by
  obtain ⟨N, hN⟩ := ha
  obtain ⟨M, hM⟩ := hb
  have h1 := hN (N + M) (by omega)
  have h2 := hM (N + M) (by omega)
  rw [h1] at h2
  exact Out.ok.inj h2

/-- **C04.** `FirstFollowSymbols::from` returns for every grammar accepted by `new`: its two loops
stop, no `unwrap` fails, no cell is borrowed twice. -/
theorem C04_first_follow_returns (h : HashOrder T) (eps init : T) (ps : List (Production T))
    (g : Grammar T) (hg : Grammar.new h eps init ps = .ok g) :
    ∃ ff, Returns (fun n => FirstFollow.from h n g) ff := by
  obtain ⟨ff, N, _, hN⟩ := FirstFollow.from_spec h (Grammar.grammarOf_of_new hg)
  exact ⟨ff, N, hN⟩

/-- **C64.** Each of the two loops of `FirstFollowSymbols::from` (`converge`, one for FIRST and one for
FOLLOW) ends after at most `2 · n + 1` passes over the productions, for `n` non-terminals (bounding the
number of passes by any such number gives the result of the unbounded loops). -/
theorem C64_passes (h : HashOrder T) (eps init : T) (ps : List (Production T))
    (g : Grammar T) (hg : Grammar.new h eps init ps = .ok g) (ff : FirstFollow T)
    (hff : Returns (fun n => FirstFollow.from h n g) ff) (passes : Nat)
    (hpasses : 2 * (g.getNonTerminalSymbols h).length + 1 ≤ passes) :
    FirstFollow.from h passes g = .ok ff := by
  obtain ⟨ff', _, hN⟩ := FirstFollow.from_passes h (Grammar.grammarOf_of_new hg)
  obtain rfl : ff = ff' := Returns.det hff ⟨_, hN⟩
  exact hN _ hpasses

/-- **C64, FOLLOW.** The loop for FOLLOW, which starts from the final FIRST sets, ends after at most
`n + 1` passes. -/
theorem C64_follow_passes (h : HashOrder T) (eps init : T) (ps : List (Production T))
    (g : Grammar T) (hg : Grammar.new h eps init ps = .ok g) (ff : FirstFollow T)
    (hff : Returns (fun n => FirstFollow.from h n g) ff) (passes : Nat)
    (hpasses : (g.getNonTerminalSymbols h).length + 1 ≤ passes) :
    FirstFollow.innerGetFollowSymbols h passes g ff.firstSymbols = .ok ff.followSymbols := by
  obtain ⟨ff', ⟨FS, _⟩, hN⟩ := FirstFollow.from_passes h (Grammar.grammarOf_of_new hg)
  obtain rfl : ff = ff' := Returns.det hff ⟨_, hN⟩
  obtain ⟨m, hm⟩ := FirstFollow.follow_passes h (Grammar.grammarOf_of_new hg) FS
  have h1 := hN (max passes (2 * (g.getNonTerminalSymbols h).length + 1)) (by omega)
  unfold FirstFollow.from at h1
  rw [Out.bind_eq_ok] at h1
  obtain ⟨fm, _, h1⟩ := h1
  rw [Out.bind_eq_ok] at h1
  obtain ⟨fo, h2, h3⟩ := h1
  cases h3
  rw [hm _ (by omega)] at h2 ⊢
  exact h2

/-- As many passes as there are non-terminals may not be enough: a chain of three non-terminals that is
visited from its beginning takes four passes for FIRST, one visited from its end four for FOLLOW (the example
after this one). -/
example : ∃ g, Grammar.new (HashOrder.id Nat) 0 1 [⟨1, [2]⟩, ⟨2, [3]⟩, ⟨3, [10]⟩] = .ok g ∧
    (g.getNonTerminalSymbols (HashOrder.id Nat)).length = 3 ∧
    FirstFollow.innerGetFirstSymbols (HashOrder.id Nat) 3 g = .fuel :=
  ⟨_, rfl, rfl, rfl⟩

example : ∃ g ff, Grammar.new (HashOrder.id Nat) 0 1
      [⟨3, [4]⟩, ⟨2, [3]⟩, ⟨1, [2, 10]⟩, ⟨4, [11]⟩] = .ok g ∧
    FirstFollow.from (HashOrder.id Nat) 9 g = .ok ff ∧
    (g.getNonTerminalSymbols (HashOrder.id Nat)).length = 4 ∧
    FirstFollow.innerGetFollowSymbols (HashOrder.id Nat) 5 g ff.firstSymbols = .ok ff.followSymbols ∧
    FirstFollow.innerGetFollowSymbols (HashOrder.id Nat) 3 g ff.firstSymbols = .fuel :=
  ⟨_, _, rfl, rfl, rfl, rfl, rfl⟩

/-- What `FirstFollowSymbols::from` returns satisfies the specification used below. -/
theorem first_follow_spec {h : HashOrder T} {eps init : T} {ps : List (Production T)}
    {g : Grammar T} (hg : Grammar.new h eps init ps = .ok g) {ff : FirstFollow T}
    (hff : Returns (fun n => FirstFollow.from h n g) ff) : FirstFollow.Spec eps ps ff := by
  obtain ⟨ff', N, S, hN⟩ := FirstFollow.from_spec h (Grammar.grammarOf_of_new hg)
  have : ff = ff' := Returns.det hff ⟨N, hN⟩
  rw [this]; exact S

/-- The hypotheses of the theorems of this file are met by a grammar with left recursion, a cycle
through a nullable symbol and a nullable symbol; FIRST(S) = {ε, a, b}, FOLLOW(S) = FOLLOW(B) = {a}. -/
example : ∃ g ff, Grammar.new (HashOrder.id Nat) 0 1 leftPs = .ok g ∧
    FirstFollow.from (HashOrder.id Nat) 10 g = .ok ff ∧
    ff.getFirstSymbols 1 = some [11, 0, 10] ∧ ff.getFollowSymbols 2 = some [10] :=
  ⟨_, _, rfl, rfl, rfl, rfl⟩

/-- The bound of C64 for this grammar is five passes; one is not enough. -/
example : ∃ g ff, Grammar.new (HashOrder.id Nat) 0 1 leftPs = .ok g ∧
    (g.getNonTerminalSymbols (HashOrder.id Nat)).length = 2 ∧
    FirstFollow.from (HashOrder.id Nat) 5 g = .ok ff ∧ FirstFollow.from (HashOrder.id Nat) 1 g = .fuel :=
  ⟨_, _, rfl, rfl, rfl, rfl⟩

/-- **C05.** FIRST is exact: a symbol `a` other than `eps` is in `get_first_symbols(A)` iff it is a
terminal and `A` derives a form that begins with `a`. -/
theorem C05_first_exact (h : HashOrder T) (eps init : T) (ps : List (Production T))
    (g : Grammar T) (hg : Grammar.new h eps init ps = .ok g) (ff : FirstFollow T)
    (hff : Returns (fun n => FirstFollow.from h n g) ff) (A : T) (hA : IsNonTerminal ps A)
    (a : T) (ha : a ≠ eps) :
    (∃ s, ff.getFirstSymbols A = some s ∧ a ∈ s) ↔
      IsTerminal ps a ∧ ∃ v, Derives eps ps [A] (a :: v) := by
  have S := first_follow_spec hg hff
  have hget : ff.getFirstSymbols A = some (FirstFollow.look ff.firstSymbols A) :=
    S.first.inv.get_some (.inl hA)
  rw [hget]
  have := S.first.mem_iff (.inl hA) ha
  unfold CanStart at this
  simp only [Option.some.injEq, exists_eq_left', this]
  exact ⟨fun h' => ⟨h'.1, h'.2.2⟩, fun h' => ⟨h'.1, ha, h'.2⟩⟩

/-- **C06.** `eps` is in `get_first_symbols(A)` iff `A` derives the empty form. -/
theorem C06_first_eps (h : HashOrder T) (eps init : T) (ps : List (Production T))
    (g : Grammar T) (hg : Grammar.new h eps init ps = .ok g) (ff : FirstFollow T)
    (hff : Returns (fun n => FirstFollow.from h n g) ff) (A : T) (hA : IsNonTerminal ps A) :
    (∃ s, ff.getFirstSymbols A = some s ∧ eps ∈ s) ↔ Derives eps ps [A] [] := by
  have S := first_follow_spec hg hff
  have hne : A ≠ eps := by
    rintro rfl; exact FirstFollow.eps_not_nt (Grammar.grammarOf_of_new hg) hA
  have hget : ff.getFirstSymbols A = some (FirstFollow.look ff.firstSymbols A) :=
    S.first.inv.get_some (.inl hA)
  rw [hget]
  simp only [Option.some.injEq, exists_eq_left']
  exact S.first.eps_mem (.inl hA) hne

/-- **C07.** The domain of FIRST, and FIRST of a terminal (`eps` included). -/
theorem C07_first_domain (h : HashOrder T) (eps init : T) (ps : List (Production T))
    (g : Grammar T) (hg : Grammar.new h eps init ps = .ok g) (ff : FirstFollow T)
    (hff : Returns (fun n => FirstFollow.from h n g) ff) :
    (∀ x, (ff.getFirstSymbols x).isSome ↔ IsTerminal ps x ∨ IsNonTerminal ps x) ∧
    (∀ x, IsTerminal ps x → ff.getFirstSymbols x = some [x]) := by
  have S := first_follow_spec hg hff
  exact ⟨fun x => by rw [or_comm]; exact S.first.inv.dom x, S.first.inv.term⟩

/-- **C08.** FOLLOW is sound. -/
theorem C08_follow_sound (h : HashOrder T) (eps init : T) (ps : List (Production T))
    (g : Grammar T) (hg : Grammar.new h eps init ps = .ok g) (ff : FirstFollow T)
    (hff : Returns (fun n => FirstFollow.from h n g) ff) (A a : T) (s : List T)
    (hs : ff.getFollowSymbols A = some s) (ha : a ∈ s) :
    IsTerminal ps a ∧ a ≠ eps ∧
      ∃ n u v, IsNonTerminal ps n ∧ Derives eps ps [n] (u ++ A :: a :: v) := by
  have S := first_follow_spec hg hff
  have hl : FirstFollow.look ff.followSymbols A = s := FirstFollow.look_of_get hs
  rw [← hl, S.follow.mem] at ha
  exact ha.canFollow

/-- FOLLOW membership is membership of the closure rules of the code. -/
theorem follow_mem_iff {h : HashOrder T} {eps init : T} {ps : List (Production T)}
    {g : Grammar T} (hg : Grammar.new h eps init ps = .ok g) {ff : FirstFollow T}
    (hff : Returns (fun n => FirstFollow.from h n g) ff) {A : T} (hA : IsNonTerminal ps A) (a : T) :
    (∃ s, ff.getFollowSymbols A = some s ∧ a ∈ s) ↔ FollowRule eps ps A a := by
  have S := first_follow_spec hg hff
  have := (S.follow.dom A).2 hA
  rw [← S.follow.mem]
  unfold FirstFollow.getFollowSymbols FirstFollow.look
  cases hm : ff.followSymbols.get A with
  | none => simp [hm] at this
  | some s => simp

/-- **C09**, the part that holds: FOLLOW is complete when no right-hand side contains the same
non-terminal twice in a row. Missing: the other grammars, for which the claim is false of the pinned
code (`C09_follow_incomplete`). -/
theorem C09_follow_complete_partial (h : HashOrder T) (eps init : T) (ps : List (Production T))
    (g : Grammar T) (hg : Grammar.new h eps init ps = .ok g) (ff : FirstFollow T)
    (hff : Returns (fun n => FirstFollow.from h n g) ff) (hadj : NoAdjacentRepeat ps)
    (n A a : T) (u v : List T) (hn : IsNonTerminal ps n) (hA : IsNonTerminal ps A)
    (ha : IsTerminal ps a) (hne : a ≠ eps) (hd : Derives eps ps [n] (u ++ A :: a :: v)) :
    ∃ s, ff.getFollowSymbols A = some s ∧ a ∈ s :=
  (follow_mem_iff hg hff hA a).2 (followRule_complete hadj hA ⟨ha, hne, n, u, v, hn, hd⟩)

/-- **C09**, exactly when it holds: FOLLOW is complete iff for every `X X` in a right-hand side
everything that can start `X` is in FOLLOW(`X`) for another reason. -/
theorem C09_follow_complete_iff (h : HashOrder T) (eps init : T) (ps : List (Production T))
    (g : Grammar T) (hg : Grammar.new h eps init ps = .ok g) (ff : FirstFollow T)
    (hff : Returns (fun n => FirstFollow.from h n g) ff) :
    (∀ A a, IsNonTerminal ps A → CanFollow eps ps A a →
      ∃ s, ff.getFollowSymbols A = some s ∧ a ∈ s) ↔
    (∀ p ∈ ps, ∀ u X t a, p.output = u ++ X :: X :: t → IsNonTerminal ps X → CanStart eps ps X a →
      ∃ s, ff.getFollowSymbols X = some s ∧ a ∈ s) := by
  have G := Grammar.grammarOf_of_new hg
  have key := followRule_complete_iff (eps := eps) (ps := ps)
  constructor
  · intro H p hp u X t a ho hX ha
    rw [follow_mem_iff hg hff hX]
    refine key.1 (fun x a hx hc => (follow_mem_iff hg hff hx a).1 (H x a hx hc)) p hp u X t a ?_ hX ha
    unfold rhs
    rw [if_neg, ho]
    rw [ho]; intro e; cases u <;> simp at e
  · intro H A a hA hc
    rw [follow_mem_iff hg hff hA]
    refine key.2 ?_ A a hA hc
    intro p hp u X t a hr hX ha
    exact (follow_mem_iff hg hff hX a).1 (H p hp u X t a (rhs_eq_output_of_mem hr) hX ha)

/-- **C09 is false of the pinned code.** For `S → X X $`, `X → a Z`, `Z → b | ε` the form `a Z X $`
shows that `a` follows `Z` (and `X`), but it is not in the computed FOLLOW sets. -/
theorem C09_follow_incomplete :
    ∃ g ff, Grammar.new (HashOrder.id Nat) 0 1 twicePs = .ok g ∧
      Returns (fun n => FirstFollow.from (HashOrder.id Nat) n g) ff ∧
      ff.getFollowSymbols 2 = some [12] ∧ ff.getFollowSymbols 3 = some [12] ∧
      Derives 0 twicePs [1] ([] ++ 2 :: 2 :: [12]) ∧
      CanFollow 0 twicePs 2 10 ∧ CanFollow 0 twicePs 3 10 := by
  have e1 : Derives 0 twicePs [1] [2, 2, 12] :=
    .step (Step.mk [] [] ⟨1, [2, 2, 12]⟩ (by decide)) (.refl _)
  have e2 : Derives 0 twicePs [2, 2, 12] [2, 10, 3, 12] :=
    .step (Step.mk [2] [12] ⟨2, [10, 3]⟩ (by decide)) (.refl _)
  have e3 : Derives 0 twicePs [2, 10, 3, 12] [10, 3, 10, 3, 12] :=
    .step (Step.mk [] [10, 3, 12] ⟨2, [10, 3]⟩ (by decide)) (.refl _)
  have ht : IsTerminal twicePs 10 := by unfold IsTerminal IsNonTerminal; decide
  have hS : IsNonTerminal twicePs 1 := by unfold IsNonTerminal; decide
  refine ⟨_, _, rfl, FirstFollow.returns_of_from (n := 5) rfl, rfl, rfl, e1, ⟨ht, by decide, 1, [], [3, 12], hS, e1.trans e2⟩,
    ⟨ht, by decide, 1, [10], [3, 12], hS, (e1.trans e2).trans e3⟩⟩

/-- The hypotheses of `C09_follow_complete_partial` are met by the expression grammar, and there the
conclusion is not vacuous: `)` follows `T'`. -/
example : NoAdjacentRepeat exprPs := by
  intro p hp u x v he hx
  have : ∀ p ∈ exprPs, ∀ i < p.output.length, p.output[i]? ≠ p.output[i + 1]? := by decide
  refine this p hp u.length (by rw [he]; simp) ?_
  rw [he]
  simp

/-- **C10.** Domain of FOLLOW; FOLLOW never contains `eps` or a non-terminal, FIRST never contains a
non-terminal; neither lists a symbol twice. -/
theorem C10_follow_domain (h : HashOrder T) (eps init : T) (ps : List (Production T))
    (g : Grammar T) (hg : Grammar.new h eps init ps = .ok g) (ff : FirstFollow T)
    (hff : Returns (fun n => FirstFollow.from h n g) ff) :
    (∀ x, (ff.getFollowSymbols x).isSome ↔ IsNonTerminal ps x) ∧
    (∀ x s, ff.getFollowSymbols x = some s → s.Nodup ∧ eps ∉ s ∧ ∀ a ∈ s, IsTerminal ps a) ∧
    (∀ x s, ff.getFirstSymbols x = some s → s.Nodup ∧ ∀ a ∈ s, ¬ IsNonTerminal ps a) := by
  have S := first_follow_spec hg hff
  have G := Grammar.grammarOf_of_new hg
  refine ⟨S.follow.dom, ?_, ?_⟩
  · intro x s hs
    have hl : FirstFollow.look ff.followSymbols x = s := FirstFollow.look_of_get hs
    have hmem : ∀ a ∈ s, CanFollow eps ps x a := by
      intro a ha
      rw [← hl, S.follow.mem] at ha
      exact ha.canFollow
    refine ⟨hl ▸ S.follow.nodup x, ?_, fun a ha => (hmem a ha).1⟩
    intro he
    exact (hmem eps he).2.1 rfl
  · intro x s hs
    have hl : FirstFollow.look ff.firstSymbols x = s := FirstFollow.look_of_get hs
    refine ⟨hl ▸ S.first.inv.nodup x, ?_⟩
    intro a ha
    have hk := (S.first.inv.dom x).1 (by
      show (ff.firstSymbols.get x).isSome
      unfold FirstFollow.getFirstSymbols at hs
      rw [hs]; rfl)
    by_cases hx : IsNonTerminal ps x
    · rw [← hl, S.first.mem_nt x hx] at ha
      rcases ha with ⟨rfl, _⟩ | h'
      · exact FirstFollow.eps_not_nt G
      · exact h'.1.2
    · have ht := hk.resolve_left hx
      rw [← hl, FirstFollow.look_of_get (S.first.inv.term x ht), List.mem_singleton] at ha
      rw [ha]; exact hx

/-- **C11**, FIRST and FOLLOW: under any two hash orders the sets have the same members. -/
theorem C11_first_follow_hash_independent (h h' : HashOrder T) (eps init : T)
    (ps : List (Production T)) (g g' : Grammar T) (ff ff' : FirstFollow T)
    (hg : Grammar.new h eps init ps = .ok g) (hg' : Grammar.new h' eps init ps = .ok g')
    (hff : Returns (fun n => FirstFollow.from h n g) ff)
    (hff' : Returns (fun n => FirstFollow.from h' n g') ff') (x : T) :
    ((ff.getFirstSymbols x).isSome = (ff'.getFirstSymbols x).isSome ∧
      ∀ s s', ff.getFirstSymbols x = some s → ff'.getFirstSymbols x = some s' → ∀ a, a ∈ s ↔ a ∈ s') ∧
    ((ff.getFollowSymbols x).isSome = (ff'.getFollowSymbols x).isSome ∧
      ∀ s s', ff.getFollowSymbols x = some s → ff'.getFollowSymbols x = some s' →
        ∀ a, a ∈ s ↔ a ∈ s') := by
  have S := first_follow_spec hg hff
  have S' := first_follow_spec hg' hff'
  refine ⟨⟨?_, ?_⟩, ⟨?_, ?_⟩⟩
  · rw [Bool.eq_iff_iff]
    exact (S.first.inv.dom x).trans (S'.first.inv.dom x).symm
  · intro s s' hs hs' a
    have hl : FirstFollow.look ff.firstSymbols x = s := FirstFollow.look_of_get hs
    have hl' : FirstFollow.look ff'.firstSymbols x = s' := FirstFollow.look_of_get hs'
    have hk := (S.first.inv.dom x).1 (by
      show (ff.firstSymbols.get x).isSome
      unfold FirstFollow.getFirstSymbols at hs
      rw [hs]; rfl)
    rw [← hl, ← hl']
    by_cases hx : IsNonTerminal ps x
    · rw [S.first.mem_nt x hx, S'.first.mem_nt x hx]
    · have ht := hk.resolve_left hx
      rw [FirstFollow.look_of_get (S.first.inv.term x ht),
        FirstFollow.look_of_get (S'.first.inv.term x ht)]
  · rw [Bool.eq_iff_iff]
    exact (S.follow.dom x).trans (S'.follow.dom x).symm
  · intro s s' hs hs' a
    have hl : FirstFollow.look ff.followSymbols x = s := FirstFollow.look_of_get hs
    have hl' : FirstFollow.look ff'.followSymbols x = s' := FirstFollow.look_of_get hs'
    rw [← hl, ← hl', S.follow.mem, S'.follow.mem]

/-- The two hash orders of this example do give different internal orders. -/
example : ∃ g g' ff ff', Grammar.new (HashOrder.id Nat) 0 1 exprPs = .ok g ∧
    Grammar.new (HashOrder.rev Nat) 0 1 exprPs = .ok g' ∧
    FirstFollow.from (HashOrder.id Nat) 10 g = .ok ff ∧
    FirstFollow.from (HashOrder.rev Nat) 10 g' = .ok ff' ∧
    ff.getFollowSymbols 6 = some [16, 11, 12, 14] ∧ ff'.getFollowSymbols 6 = some [11, 16, 12, 14] := by
  exact ⟨_, _, _, _, rfl, rfl, rfl, rfl, rfl, rfl⟩

end Verif.Props
