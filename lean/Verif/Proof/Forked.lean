import Verif.Spec.Forked
import Verif.Proof.Derivation

/-!
# No conflict-free table for two kinds of balanced words
-/

namespace Verif.Forked

open Verif.Spec

variable {T : Type} [DecidableEq T] {eps : T} {ps : List (Production T)} {b c e : T}

/-- The words of a symbol, with or without the end marker. -/
def tail (e : T) (d : Bool) : List T := if d then [e] else []

/-- How `bⁿ e` is divided. -/
theorem split_word {n : Nat} {u v : List T} (h : List.replicate n b ++ [e] = u ++ v) :
    (∃ k, k ≤ n ∧ u = List.replicate k b ∧ v = List.replicate (n - k) b ++ [e]) ∨
      (u = List.replicate n b ++ [e] ∧ v = []) := by
  induction n generalizing u with
  | zero =>
    cases u with
    | nil => exact .inl ⟨0, Nat.zero_le _, rfl, by simpa using h.symm⟩
    | cons x u =>
      simp only [List.replicate_zero, List.nil_append, List.cons_append, List.cons.injEq] at h
      obtain ⟨rfl, h⟩ := h
      have := List.append_eq_nil_iff.1 h.symm
      exact .inr ⟨by simp [this.1], this.2⟩
  | succ n ih =>
    cases u with
    | nil => exact .inl ⟨0, Nat.zero_le _, rfl, by simpa using h.symm⟩
    | cons x u =>
      simp only [List.replicate_succ, List.cons_append, List.cons.injEq] at h
      obtain ⟨rfl, h⟩ := h
      rcases ih h with ⟨k, hk, rfl, rfl⟩ | ⟨rfl, rfl⟩
      · exact .inl ⟨k + 1, by omega, by simp [List.replicate_succ], by simp [Nat.add_sub_add_right]⟩
      · exact .inr ⟨by simp [List.replicate_succ], rfl⟩

/-- If a list of symbols derives `bⁿ e` and `cⁿ e` and no other word, then one symbol derives all of the `b`. -/
theorem one_symbol (hbc : b ≠ c) (hbe : b ≠ e) (P : T → Prop) (hb : P b) (hc : P c) (he : P e) {n : Nat} (hn : n ≠ 0)
    {st : List T} (h1 : Derives eps ps st (List.replicate n b ++ [e])) (h2 : Derives eps ps st (List.replicate n c ++ [e]))
    (hall : ∀ v, (∀ x ∈ v, P x) → Derives eps ps st v → v = List.replicate n b ++ [e] ∨ v = List.replicate n c ++ [e]) :
    ∃ z d, Derives eps ps [z] (List.replicate n b ++ tail e d) ∧
      ∀ m, Derives eps ps [z] (List.replicate m b ++ tail e d) → Derives eps ps st (List.replicate m b ++ [e]) := by
  have hPb : ∀ x ∈ List.replicate n b ++ [e], P x := by
    intro x hx
    simp only [List.mem_append, List.mem_replicate, List.mem_singleton] at hx
    rcases hx with ⟨-, rfl⟩ | rfl <;> assumption
  have hPc : ∀ x ∈ List.replicate n c ++ [e], P x := by
    intro x hx
    simp only [List.mem_append, List.mem_replicate, List.mem_singleton] at hx
    rcases hx with ⟨-, rfl⟩ | rfl <;> assumption
  induction st with
  | nil => simpa using h1.nil_eq
  | cons x rest ih =>
    obtain ⟨c1, c2, e1, hx1, hr1⟩ := h1.cons_split
    obtain ⟨d1, d2, e2, hx2, hr2⟩ := h2.cons_split
    have hjoin : ∀ {u v}, Derives eps ps [x] u → Derives eps ps rest v → Derives eps ps (x :: rest) (u ++ v) :=
      fun h h' => Derives.append h h'
    rcases split_word e1 with ⟨k, hk, rfl, rfl⟩ | ⟨rfl, rfl⟩
    · rcases Nat.eq_zero_or_pos k with rfl | hk0
      · -- `x` contributes nothing
        have hd1 : d1 = [] := by
          have := hall (d1 ++ (List.replicate n b ++ [e])) (by
            intro y hy
            rcases List.mem_append.1 hy with hy | hy
            · exact hPc y (by rw [e2]; simp [hy])
            · exact hPb y hy) (hjoin hx2 (by simpa using hr1))
          have hl : (d1 ++ (List.replicate n b ++ [e])).length = n + 1 := by rcases this with h | h <;> rw [h] <;> simp
          simp only [List.length_append, List.length_replicate, List.length_singleton] at hl
          exact List.length_eq_zero_iff.1 (by omega)
        subst hd1
        simp only [List.replicate_zero, Nat.sub_zero, List.nil_append] at hx1 hr1 e2
        obtain ⟨z, d, h3, h4⟩ := ih hr1 (by rw [e2]; exact hr2) fun v hv hd => hall v hv (hjoin hx1 hd)
        exact ⟨z, d, h3, fun m hm => by simpa using hjoin hx1 (h4 m hm)⟩
      · rcases Nat.lt_or_ge k n with hkn | hkn
        · -- impossible: part of the `b` before the end of `x`, part behind
          exfalso
          have := hall (List.replicate k b ++ d2) (by
            intro y hy
            rcases List.mem_append.1 hy with hy | hy
            · rw [(List.mem_replicate.1 hy).2]; exact hb
            · exact hPc y (by rw [e2]; simp [hy])) (hjoin hx1 hr2)
          obtain ⟨k, rfl⟩ := Nat.exists_eq_succ_of_ne_zero (by omega : k ≠ 0)
          obtain ⟨n, rfl⟩ := Nat.exists_eq_succ_of_ne_zero hn
          have hb1 : List.replicate (k + 1) b ++ d2 = List.replicate (n + 1) b ++ [e] := by
            rcases this with h | h
            · exact h
            · simp only [Nat.succ_eq_add_one, List.replicate_succ, List.cons_append, List.cons.injEq] at h
              exact absurd h.1 hbc
          have hmem : b ∈ d2 := by
            have hrep : List.replicate (n + 1) b = List.replicate (k + 1) b ++ List.replicate (n - k) b := by
              rw [List.replicate_append_replicate]
              congr 1
              omega
            rw [hrep, List.append_assoc, List.append_right_inj] at hb1
            rw [hb1]
            have h0 : n - k ≠ 0 := by omega
            simp [h0]
          have : b ∈ List.replicate (n + 1) c ++ [e] := by
            rw [show List.replicate (n + 1) c ++ [e] = d1 ++ d2 from e2]; simp [hmem]
          simp only [List.mem_append, List.mem_replicate, List.mem_singleton] at this
          rcases this with ⟨-, h⟩ | h
          · exact hbc h
          · exact hbe h
        · obtain rfl : k = n := by omega
          refine ⟨x, false, by simpa [tail] using hx1, fun m hm => ?_⟩
          exact hjoin (by simpa [tail] using hm) (by simpa using hr1)
    · refine ⟨x, true, hx1, fun m hm => ?_⟩
      simpa using hjoin (show Derives eps ps [x] (List.replicate m b ++ [e]) from hm) hr1

end Verif.Forked
