import Verif.Spec.Regular
import Verif.Spec.LL1
import Verif.Proof.Expands
import Verif.Proof.Lists
import Mathlib.Data.Fintype.Basic
import Mathlib.Data.List.Nodup

/-!
# The grammar of a finite automaton
-/

set_option linter.unusedSectionVars false

namespace Verif

open Spec

variable {Q α : Type} [DecidableEq Q] [DecidableEq α]

namespace Regular

variable {states : List Q} {letters : List α} {step : Q → α → Q} {accept : Q → Bool}

theorem mem_iff {r : Production (RegSym Q α)} : r ∈ regular states letters step accept ↔
    ∃ q ∈ states, (∃ a ∈ letters, r = ⟨.state q, [.letter a, .state (step q a)]⟩) ∨
      (accept q = true ∧ r = ⟨.state q, [.eps]⟩) := by
  unfold regular
  rw [List.mem_flatMap]
  refine exists_congr fun q => and_congr_right fun _ => ?_
  rw [List.mem_append, List.mem_map]
  refine or_congr (exists_congr fun a => and_congr_right fun _ => eq_comm) ?_
  split <;> simp_all

theorem input {r : Production (RegSym Q α)} (h : r ∈ regular states letters step accept) : ∃ q, r.input = .state q := by
  obtain ⟨q, -, ⟨a, -, rfl⟩ | ⟨-, rfl⟩⟩ := mem_iff.1 h <;> exact ⟨q, rfl⟩

theorem not_nt {x : RegSym Q α} (hx : ∀ q, x ≠ .state q) :
    ¬ IsNonTerminal (regular states letters step accept) x := by
  rintro ⟨r, hr, rfl⟩
  obtain ⟨q, e⟩ := input hr
  exact hx q e

theorem rhs_letter (q : Q) (a : α) (q' : Q) :
    rhs .eps (⟨.state q, [.letter a, .state q']⟩ : Production (RegSym Q α)) = [.letter a, .state q'] := by
  simp [rhs]

theorem rhs_eps (q : Q) : rhs .eps (⟨.state q, [.eps]⟩ : Production (RegSym Q α)) = [] := by
  simp [rhs]

theorem wellFormed : WellFormed .eps (regular states letters step accept) := by
  intro r hr
  obtain ⟨q, -, ⟨a, -, rfl⟩ | ⟨-, rfl⟩⟩ := mem_iff.1 hr <;> simp

theorem noAdjacentRepeat : NoAdjacentRepeat (regular states letters step accept) := by
  intro r hr u x v e hn
  obtain ⟨q, -, ⟨a, -, rfl⟩ | ⟨-, rfl⟩⟩ := mem_iff.1 hr
  · rcases occ_cons e with ⟨h, -, e'⟩ | ⟨u', rfl, e1⟩
    · rw [← h] at hn
      exact not_nt (by simp) hn
    · simpa using (occ_one e1).2.2
  · simpa using (occ_one e).2.2

theorem notLeftRecursive : NotLeftRecursive .eps (regular states letters step accept) := by
  rintro x v ⟨m, hs, hd⟩
  obtain ⟨r, hr, rfl, rfl⟩ := Step.single hs
  obtain ⟨q, -, ⟨a, -, rfl⟩ | ⟨-, rfl⟩⟩ := mem_iff.1 hr
  · rw [rhs_letter] at hd
    obtain ⟨c1, c2, e, k1, -⟩ := Derives.cons_split hd
    rw [Derives.terminal_eq (not_nt (by simp)) k1] at e
    simp at e
  · rw [rhs_eps] at hd
    simpa using Derives.nil_eq hd

theorem nodup (hs : states.Nodup) (hl : letters.Nodup) : (regular states letters step accept).Nodup := by
  unfold regular
  rw [List.nodup_flatMap]
  constructor
  · intro q _
    refine List.Nodup.append ?_ ?_ ?_
    · refine hl.map fun a b e => ?_
      simp only [Production.mk.injEq, List.cons.injEq, RegSym.letter.injEq] at e
      exact e.2.1
    · split <;> simp
    · intro r h1 h2
      obtain ⟨a, -, rfl⟩ := List.mem_map.1 h1
      split at h2 <;> simp at h2
  · refine hs.imp fun {q q'} hne r h1 h2 => hne ?_
    have key : ∀ {q}, r ∈ (letters.map fun a => (⟨.state q, [.letter a, .state (step q a)]⟩ : Production (RegSym Q α))) ++
        (if accept q then [⟨.state q, [.eps]⟩] else []) → r.input = .state q := by
      intro q h
      rcases List.mem_append.1 h with h | h
      · obtain ⟨a, -, rfl⟩ := List.mem_map.1 h
        rfl
      · split at h
        · rw [List.mem_singleton.1 h]
        · simp at h
    have := (key h1).symm.trans (key h2)
    simpa using this

theorem expands_iff (hs : ∀ q, q ∈ states) (hl : ∀ a, a ∈ letters) (hne : letters ≠ []) (u : List (RegSym Q α)) (q : Q) :
    Expands .eps (regular states letters step accept) (.state q) u ↔
      ∃ w : List α, u = w.map .letter ∧ accept (w.foldl step q) = true := by
  have hlet : ∀ a, ¬ IsNonTerminal (regular states letters step accept) (.letter a) := fun a => not_nt (by simp)
  constructor
  · intro h
    induction hn : u.length generalizing u q with
    | zero =>
      obtain rfl := List.length_eq_zero_iff.1 hn
      generalize hx : RegSym.state q = x at h
      cases h with
      | node r _ hr hw =>
        obtain ⟨q', -, ⟨a, -, rfl⟩ | ⟨ha, rfl⟩⟩ := mem_iff.1 hr
        · rw [rhs_letter] at hw
          generalize hu : ([] : List (RegSym Q α)) = u at hw
          cases hw with
          | cons _ _ u1 u2 k1 k2 =>
            rw [k1.terminal (hlet a)] at hu
            simp at hu
        · simp only [RegSym.state.injEq] at hx
          exact ⟨[], rfl, hx ▸ ha⟩
    | succ n ih =>
      generalize hx : RegSym.state q = x at h
      cases h with
      | leaf _ hx' _ =>
        subst hx
        exfalso
        obtain ⟨a, ha⟩ := List.exists_mem_of_ne_nil _ hne
        exact hx' ⟨_, mem_iff.2 ⟨q, hs q, .inl ⟨a, ha, rfl⟩⟩, rfl⟩
      | node r _ hr hw =>
        obtain ⟨q', -, ⟨a, -, rfl⟩ | ⟨ha, rfl⟩⟩ := mem_iff.1 hr
        · rw [rhs_letter] at hw
          simp only [RegSym.state.injEq] at hx
          subst hx
          cases hw with
          | cons _ _ u1 u2 k1 k2 =>
            rw [k1.terminal (hlet a)] at hn ⊢
            obtain ⟨w, rfl, hw⟩ := ih u2 _ (ExpandsAll.single.1 k2) (by simpa using hn)
            exact ⟨a :: w, rfl, hw⟩
        · rw [rhs_eps] at hw
          cases hw
          simp at hn
  · rintro ⟨w, rfl, h⟩
    induction w generalizing q with
    | nil =>
      have hm : (⟨.state q, [.eps]⟩ : Production (RegSym Q α)) ∈ regular states letters step accept :=
        mem_iff.2 ⟨q, hs q, .inr ⟨h, rfl⟩⟩
      exact Expands.node _ [] hm (by rw [rhs_eps]; exact .nil)
    | cons a w ih =>
      have hm : (⟨.state q, [.letter a, .state (step q a)]⟩ : Production (RegSym Q α)) ∈
          regular states letters step accept := mem_iff.2 ⟨q, hs q, .inl ⟨a, hl a, rfl⟩⟩
      refine Expands.node _ _ hm ?_
      rw [rhs_letter]
      exact ExpandsAll.cons (.letter a) _ [.letter a] _ (.leaf _ (hlet a) (by simp)) (ExpandsAll.single.2 (ih _ h))

theorem fresh : Fresh .eps (regular states letters step accept) .start .stop := by
  refine ⟨by simp, by simp, by simp, fun r hr => ?_, fun r hr => ?_⟩ <;>
    (obtain ⟨q, -, ⟨a, -, rfl⟩ | ⟨-, rfl⟩⟩ := mem_iff.1 hr <;> simp)

/-- The grammar with its end marker. -/
abbrev marked (states : List Q) (letters : List α) (step : Q → α → Q) (accept : Q → Bool) (q0 : Q) :
    List (Production (RegSym Q α)) :=
  augment (.state q0) .start .stop (regular states letters step accept)

variable {q0 : Q}

theorem marked_not_nt {x : RegSym Q α} (hx : ∀ q, x ≠ .state q) (hs : x ≠ .start) :
    ¬ IsNonTerminal (marked states letters step accept q0) x := by
  rintro ⟨r, hr, rfl⟩
  rcases mem_augment.1 hr with rfl | hr
  · exact hs rfl
  · obtain ⟨q, e⟩ := input hr
    exact hx q e

theorem rhs_start : rhs .eps (⟨.start, [.state q0, .stop]⟩ : Production (RegSym Q α)) = [.state q0, .stop] := by
  simp [rhs]

/-- Only the end marker follows a state. -/
theorem follow {x c : RegSym Q α} (h : FollowRule .eps (marked states letters step accept q0) x c) (hx : ∃ q, x = .state q) :
    c = .stop := by
  induction h with
  | @first p u t x c hp hr _ _ hc =>
    rcases mem_augment.1 hp with rfl | hp
    · rw [rhs_start] at hr
      rcases occ_cons hr with ⟨-, -, rfl⟩ | ⟨u', rfl, e⟩
      · exact strFirst_terminal (marked_not_nt (by simp) (by simp)) hc
      · obtain ⟨q, rfl⟩ := hx
        simpa using (occ_one e).1
    · obtain ⟨q, -, ⟨a, -, rfl⟩ | ⟨-, rfl⟩⟩ := mem_iff.1 hp
      · rw [rhs_letter] at hr
        rcases occ_cons hr with ⟨e, -, -⟩ | ⟨u', rfl, e⟩
        · obtain ⟨q, rfl⟩ := hx
          simp at e
        · obtain ⟨-, -, rfl⟩ := occ_one e
          exact absurd hc not_strFirst_nil
      · rw [rhs_eps] at hr
        simp at hr
  | @last p u t x c hp hr _ ht _ ih =>
    rcases mem_augment.1 hp with rfl | hp
    · rw [rhs_start] at hr
      rcases occ_cons hr with ⟨-, -, rfl⟩ | ⟨u', rfl, e⟩
      · exact absurd ht (not_strNullable_terminal (marked_not_nt (by simp) (by simp)))
      · obtain ⟨q, rfl⟩ := hx
        simpa using (occ_one e).1
    · exact ih (input hp)

/-- What predicts a production. -/
theorem predicts {p : Production (RegSym Q α)} (hp : p ∈ marked states letters step accept q0) {c : RegSym Q α}
    (h : Predicts .eps (marked states letters step accept q0) p c)
    (hadj : NoAdjacentRepeat (marked states letters step accept q0)) :
    p = ⟨.start, [.state q0, .stop]⟩ ∨
      (∃ q a, p = ⟨.state q, [.letter a, .state (step q a)]⟩ ∧ c = .letter a) ∨
      ∃ q, p = ⟨.state q, [.eps]⟩ ∧ c = .stop := by
  obtain ⟨-, -, hd⟩ := h
  rcases mem_augment.1 hp with rfl | hp'
  · exact .inl rfl
  · obtain ⟨q, -, ⟨a, -, rfl⟩ | ⟨-, rfl⟩⟩ := mem_iff.1 hp'
    · refine .inr (.inl ⟨q, a, rfl, ?_⟩)
      rw [rhs_letter] at hd
      have hn : ¬ IsNonTerminal (marked states letters step accept q0) (.letter a) := marked_not_nt (by simp) (by simp)
      rcases hd with ⟨v, hd⟩ | ⟨hd, -⟩
      · obtain ⟨c1, c2, e, k1, -⟩ := Derives.cons_split hd
        rw [Derives.terminal_eq hn k1] at e
        simp only [List.cons_append, List.cons.injEq] at e
        exact e.1
      · obtain ⟨c1, c2, e, k1, -⟩ := Derives.cons_split hd
        rw [Derives.terminal_eq hn k1] at e
        simp at e
    · refine .inr (.inr ⟨q, rfl, ?_⟩)
      rw [rhs_eps] at hd
      rcases hd with ⟨v, hd⟩ | ⟨-, hd⟩
      · simpa using Derives.nil_eq hd
      · exact follow (followRule_complete hadj ⟨_, hp, rfl⟩ hd) ⟨q, rfl⟩

theorem marked_ll1 (hs : states.Nodup) (hl : letters.Nodup)
    (hadj : NoAdjacentRepeat (marked states letters step accept q0)) :
    IsLL1 .eps (marked states letters step accept q0) := by
  have hnd : (marked states letters step accept q0).Nodup := by
    refine List.nodup_cons.2 ⟨fun h => ?_, nodup hs hl⟩
    obtain ⟨q, e⟩ := input h
    simp at e
  refine hnd.pairwise_of_forall_ne fun p hp p' hp' hne hin c ⟨h1, h2⟩ => hne ?_
  rcases predicts hp h1 hadj with rfl | ⟨q, a, rfl, rfl⟩ | ⟨q, rfl, rfl⟩ <;>
    rcases predicts hp' h2 hadj with rfl | ⟨q', a', rfl, e⟩ | ⟨q', rfl, e⟩ <;>
    simp_all

theorem marked_leadAlone : NullableLeadAlone .eps (marked states letters step accept q0) := by
  intro p hp x r hr hn
  rcases mem_augment.1 hp with rfl | hp
  · unfold marked augment
    rw [List.filter_cons_of_pos (by simp), List.filter_eq_nil_iff.2]
    intro r hr'
    obtain ⟨q, e⟩ := input hr'
    simp [e]
  · exfalso
    obtain ⟨q, -, ⟨a, -, rfl⟩ | ⟨-, rfl⟩⟩ := mem_iff.1 hp
    · rw [rhs_letter] at hr
      obtain ⟨rfl, -⟩ := List.cons.inj hr
      have := Derives.terminal_eq (marked_not_nt (q0 := q0) (by simp) (by simp)) hn
      simp at this
    · rw [rhs_eps] at hr
      simp at hr

end Regular

end Verif
