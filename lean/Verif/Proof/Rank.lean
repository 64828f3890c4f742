import Verif.Proof.Derivation

/-! # A criterion for the absence of left recursion, used for the examples -/

set_option linter.unusedSectionVars false

namespace Verif.Spec

variable {T : Type} [DecidableEq T] {eps : T} {ps : List (Production T)}

/-- The symbols a right-hand side can begin with have a smaller rank. -/
def leadOk (N : T → Bool) (r : T → Nat) (x : T) : List T → Bool
  | [] => true
  | z :: w => decide (r z < r x) && (!(N z) || leadOk N r x w)

/-- The sufficient condition, as a computation. -/
def rankOk (eps : T) (ps : List (Production T)) (N : T → Bool) (r : T → Nat) : Bool :=
  ps.all (fun p => leadOk N r p.input (rhs eps p)) &&
    ps.all (fun p => !((rhs eps p).all N) || N p.input)

theorem nullable_le {N : T → Bool}
    (hN : ∀ p ∈ ps, (∀ z ∈ rhs eps p, N z = true) → N p.input = true) {a : List T}
    (h : Derives eps ps a []) : ∀ z ∈ a, N z = true := by
  generalize hb : ([] : List T) = b at h
  induction h with
  | refl => subst hb; simp
  | step hs _ ih =>
    have ih := ih hb
    cases hs with
    | mk u v p hp =>
      intro z hz
      simp only [List.mem_append, List.mem_cons] at hz
      rcases hz with hz | rfl | hz
      · exact ih z (by simp [hz])
      · exact hN p hp (fun z hz => ih z (by simp [hz]))
      · exact ih z (by simp [hz])

theorem leadOk_split {N : T → Bool} {r : T → Nat} {x : T} {l u w : List T} {z : T}
    (h : leadOk N r x l = true) (hl : l = u ++ z :: w) (hu : ∀ y ∈ u, N y = true) : r z < r x := by
  induction u generalizing l with
  | nil =>
    subst hl
    simp only [List.nil_append, leadOk, Bool.and_eq_true, decide_eq_true_eq] at h
    exact h.1
  | cons y u ih =>
    subst hl
    simp only [List.cons_append, leadOk, Bool.and_eq_true, decide_eq_true_eq, Bool.or_eq_true,
      Bool.not_eq_true'] at h
    have hy := hu y (by simp)
    rcases h.2 with h' | h'
    · rw [hy] at h'; simp at h'
    · exact ih h' rfl (fun y' h' => hu y' (by simp [h']))

theorem notLeftRecursive_of_rank (N : T → Bool) (r : T → Nat) (h : rankOk eps ps N r = true) :
    NotLeftRecursive eps ps := by
  simp only [rankOk, Bool.and_eq_true, List.all_eq_true, Bool.or_eq_true, Bool.not_eq_true'] at h
  obtain ⟨hlead, hnull⟩ := h
  have hN : ∀ p ∈ ps, (∀ z ∈ rhs eps p, N z = true) → N p.input = true := by
    intro p hp hz
    rcases hnull p hp with h' | h'
    · have : (rhs eps p).all N = true := List.all_eq_true.2 hz
      rw [h'] at this
      simp at this
    · exact h'
  have key : ∀ a b, Derives eps ps a b → ∀ y v, b = y :: v → ∃ u z w, a = u ++ z :: w ∧
      (∀ s ∈ u, N s = true) ∧ (z = y ∨ r y < r z) := by
    intro a b hd
    induction hd with
    | refl a => intro y v e; exact ⟨[], y, v, e, by simp, .inl rfl⟩
    | step hs _ ih =>
      intro y v e
      obtain ⟨u, z, w, h1, h2, h3⟩ := ih y v e
      cases hs with
      | mk u0 v0 p hp =>
        rw [List.append_assoc, List.append_eq_append_iff] at h1
        rcases h1 with ⟨a', ha1, ha2⟩ | ⟨c', hc1, hc2⟩
        · -- the leading symbol is behind `u0`
          rw [List.append_eq_append_iff] at ha2
          rcases ha2 with ⟨b', hb1, hb2⟩ | ⟨d', hd1, hd2⟩
          · -- behind the right-hand side as well
            refine ⟨u0 ++ p.input :: b', z, w, by simp [hb2], ?_, h3⟩
            intro s hs
            simp only [List.mem_append, List.mem_cons] at hs
            rcases hs with hs | rfl | hs
            · exact h2 s (by rw [ha1]; simp [hs])
            · exact hN p hp (fun t ht => h2 t (by rw [ha1, hb1]; simp [ht]))
            · exact h2 s (by rw [ha1, hb1]; simp [hs])
          · cases d' with
            | nil =>
              simp only [List.append_nil, List.nil_append] at hd1 hd2
              refine ⟨u0 ++ [p.input], z, w, by simp [hd2], ?_, h3⟩
              intro s hs
              simp only [List.mem_append, List.mem_singleton] at hs
              rcases hs with hs | rfl
              · exact h2 s (by rw [ha1]; simp [hs])
              · exact hN p hp (fun t ht => h2 t (by rw [ha1, ← hd1]; simp [ht]))
            | cons z' d' =>
              simp only [List.cons_append, List.cons.injEq] at hd2
              obtain ⟨rfl, rfl⟩ := hd2
              refine ⟨u0, p.input, v0, rfl, fun s hs => h2 s (by rw [ha1]; simp [hs]), .inr ?_⟩
              have := leadOk_split (hlead p hp) hd1 (fun s hs => h2 s (by rw [ha1]; simp [hs]))
              rcases h3 with rfl | h3
              · exact this
              · omega
        · cases c' with
          | nil =>
            -- the leading symbol is right behind `u0`
            simp only [List.append_nil, List.nil_append] at hc1 hc2
            cases hr : rhs eps p with
            | nil =>
              rw [hr] at hc2
              simp only [List.nil_append] at hc2
              refine ⟨u0 ++ [p.input], z, w, by simp [← hc2], ?_, h3⟩
              intro s hs
              simp only [List.mem_append, List.mem_singleton] at hs
              rcases hs with hs | rfl
              · exact h2 s (by rw [← hc1]; exact hs)
              · exact hN p hp (by rw [hr]; simp)
            | cons z' t =>
              rw [hr] at hc2
              simp only [List.cons_append, List.cons.injEq] at hc2
              obtain ⟨rfl, rfl⟩ := hc2
              refine ⟨u0, p.input, v0, rfl, fun s hs => h2 s (by rw [← hc1]; exact hs), .inr ?_⟩
              have := leadOk_split (u := []) (hlead p hp) hr (by simp)
              rcases h3 with rfl | h3
              · exact this
              · omega
          | cons z' c' =>
            simp only [List.cons_append, List.cons.injEq] at hc2
            obtain ⟨rfl, rfl⟩ := hc2
            exact ⟨u, z, c' ++ p.input :: v0, by simp [hc1], h2, h3⟩
  rintro x v ⟨b, hs, hd⟩
  obtain ⟨p, hp, hpx, rfl⟩ := hs.single
  obtain ⟨u, z, w, h1, h2, h3⟩ := key _ _ hd x v rfl
  have := leadOk_split (hlead p hp) h1 h2
  rw [hpx] at this
  rcases h3 with rfl | h3
  · omega
  · omega

end Verif.Spec
