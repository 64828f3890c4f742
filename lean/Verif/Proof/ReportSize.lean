import Verif.Proof.ReportDepth
import Verif.Spec.ReportSize

/-! # The size of failure reports -/

set_option linter.unusedSectionVars false

namespace Verif.Parser.Recovery

open Spec

variable {σ L T : Type} [DecidableEq T] {eps : T} {ps : List (Production T)}
  {cand : T → T → List (List T)} {solver : Option (Solver σ L T)} {tokens : List (Token L T)}

/-- With at most `w` candidates per symbol and token a report of depth `d` has at most
`1 + w + … + w ^ (d - 1)` symbols. -/
theorem failsAt_size {w : Nat} (hlen : ∀ x a, (cand x a).length ≤ w) {x : T} {i : Nat}
    {f : FailedSymbol L T} (h : FailsAt eps ps cand solver tokens x i f) :
    1 ≤ reportDepth f ∧ reportSize f ≤ ((List.range (reportDepth f)).map (w ^ ·)).sum := by
  have hmono : ∀ a b, a ≤ b → ((List.range a).map (w ^ ·)).sum ≤ ((List.range b).map (w ^ ·)).sum := by
    intro a b hab
    induction b with
    | zero => rw [Nat.le_zero.1 hab]
    | succ b ih =>
      rcases Nat.lt_or_ge a (b + 1) with h | h
      · have := ih (by omega)
        rw [List.range_succ, List.map_append, List.sum_append]
        omega
      · rw [show a = b + 1 by omega]
  have hsucc : ∀ d, ((List.range (1 + d)).map (w ^ ·)).sum = 1 + w * ((List.range d).map (w ^ ·)).sum := by
    intro d
    induction d with
    | zero => simp
    | succ d ih =>
      rw [← Nat.add_assoc, List.range_succ, List.map_append, List.sum_append, ih, List.range_succ,
        List.map_append, List.sum_append]
      simp only [List.map_cons, List.map_nil, List.sum_cons, List.sum_nil, Nat.add_zero, Nat.mul_add]
      rw [Nat.add_comm 1 d, Nat.pow_succ, Nat.mul_comm (w ^ d) w]
      omega
  refine FailsAt.rec (eps := eps) (ps := ps) (cand := cand) (solver := solver) (tokens := tokens)
    (motive_1 := fun x i f _ =>
      1 ≤ reportDepth f ∧ reportSize f ≤ ((List.range (reportDepth f)).map (w ^ ·)).sum)
    (motive_2 := fun i outs fps _ =>
      reportSizeList fps ≤ outs.length * ((List.range (reportDepthList fps)).map (w ^ ·)).sum)
    ?_ ?_ ?_ ?_ h
  · intro x i _ _ _
    refine ⟨by simp [reportDepth], ?_⟩
    simp [reportDepth, reportSize, reportDepthList, reportSizeList]
  · intro x i t fps _ _ _ ih
    refine ⟨by simp [reportDepth], ?_⟩
    rw [reportDepth, reportSize, hsucc]
    have := Nat.mul_le_mul_right ((List.range (reportDepthList fps)).map (w ^ ·)).sum (hlen x t.tType)
    omega
  · intro i
    simp [reportSizeList]
  · intro i j before y after f parsed outs fps _ _ _ ih1 ih2
    rw [reportSizeList, reportSizeProduction, reportDepthList, reportDepthProduction, List.length_cons,
      Nat.add_mul, Nat.one_mul]
    have h1 := hmono _ _ (Nat.le_max_left (reportDepth f) (reportDepthList fps))
    have h2 := Nat.mul_le_mul_left outs.length
      (hmono _ _ (Nat.le_max_right (reportDepth f) (reportDepthList fps)))
    have := ih1.2
    omega

end Verif.Parser.Recovery
