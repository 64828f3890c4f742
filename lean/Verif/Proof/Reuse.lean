import Verif.Spec.Occurs
import Verif.Proof.Ahead
import Verif.Proof.Subtree
import Verif.Proof.PredictedAt

/-!
# What two trees have in common
-/

set_option linter.unusedSectionVars false

namespace Verif.Reuse

open Verif.Spec Verif.Parser

variable {L T : Type} [DecidableEq T] {eps : T} {ps : List (Production T)} {cand : T → T → List (List T)}
  {tokens tokens' : List (Token L T)}

theorem unique (hcf : ∀ x a, (cand x a).length ≤ 1) {x a : T} {o o' : List T} (h : o ∈ cand x a) (h' : o' ∈ cand x a) :
    o' = o := by
  have := hcf x a
  match hl : cand x a, this with
  | [], _ => rw [hl] at h; simp at h
  | [y], _ => rw [hl] at h h'; simp at h h'; rw [h, h']
  | _ :: _ :: _, h => simp at h

theorem pos_le {x : T} {i j : Nat} {n : Node L T} (h : Predicted eps ps cand tokens x i n j) : i ≤ j :=
  (h.shift 0 (Nat.zero_le _)).2

theorem seq_pos_le {xs : List T} {i j : Nat} {ns : List (Node L T)}
    (h : PredictedSeq eps ps cand tokens xs i ns j) : i ≤ j :=
  (h.shift 0 (Nat.zero_le _)).2

theorem end_eq (hw : WellFormed eps ps) (hc : ∀ x a o, o ∈ cand x a → (⟨x, o⟩ : Production T) ∈ ps)
    {x : T} {i j : Nat} {n : Node L T} (h : Predicted eps ps cand tokens x i n j) : j = i + (leaves eps n).length := by
  have := PredictedSeq.position hw hc (PredictedSeq.cons x [] i j j n [] h (.nil j))
  simpa [leavesList] using this

theorem occurs_le {ns : List (Node L T)} {i j : Nat} {m : Node L T} (h : Occurs eps ns i m j) : i ≤ j := by
  induction h with
  | here => exact Nat.le_refl _
  | behind _ _ _ _ _ _ ih => omega
  | inside _ _ _ _ _ _ _ ih => exact ih

variable (hw : WellFormed eps ps) (hcf : ∀ x a, (cand x a).length ≤ 1)

include hw hcf

mutual
/-- A tree depends only on its tokens and the type of the next one. -/
theorem det {x : T} {i j : Nat} {n : Node L T} (h : Predicted eps ps cand tokens x i n j)
    (ha : AgreeTo tokens tokens' j) {n' : Node L T} {j' : Nat} (h' : Predicted eps ps cand tokens' x i n' j') :
    n' = n ∧ j' = j := by
  have he : ¬ IsNonTerminal ps eps := fun ⟨q, hq, e⟩ => (hw q hq).1 e
  cases h with
  | leaf t i h1 h2 h3 =>
    generalize hx : t.tType = x at h'
    cases h' with
    | leaf t' _ h1' h2' h3' =>
      rw [ha.1 i (Nat.lt_succ_self i), h3, Option.some.injEq] at h3'
      subst h3'
      exact ⟨rfl, rfl⟩
    | eps => exact absurd hx h2
    | node _ _ _ _ _ _ h1' => exact absurd (hx ▸ h1') h1
  | eps i =>
    generalize hx : eps = x at h'
    cases h' with
    | leaf t' _ h1' h2' h3' => exact absurd rfl h2'
    | eps => exact ⟨rfl, rfl⟩
    | node _ _ _ _ _ _ h1' => exact absurd (hx ▸ h1') he
  | node x i t out ns j h1 h2 h3 h4 =>
    cases h' with
    | leaf t' _ h1' h2' h3' => exact absurd h1 h1'
    | eps => exact absurd h1 he
    | node _ _ t' out' ns' _ h1' h2' h3' h4' =>
      obtain ⟨t'', h5, h6⟩ := ha.type (seq_pos_le h4) h2
      rw [h5, Option.some.injEq] at h2'
      subst h2'
      rw [h6] at h3'
      obtain rfl := unique hcf h3 h3'
      obtain ⟨rfl, rfl⟩ := detSeq h4 ha h4'
      exact ⟨rfl, rfl⟩
theorem detSeq {xs : List T} {i j : Nat} {ns : List (Node L T)} (h : PredictedSeq eps ps cand tokens xs i ns j)
    (ha : AgreeTo tokens tokens' j) {ns' : List (Node L T)} {j' : Nat}
    (h' : PredictedSeq eps ps cand tokens' xs i ns' j') : ns' = ns ∧ j' = j := by
  cases h with
  | nil i => cases h'; exact ⟨rfl, rfl⟩
  | cons x xs i k _ n ns h1 h2 =>
    cases h' with
    | cons _ _ _ k' _ n' ns' h1' h2' =>
      obtain ⟨rfl, rfl⟩ := det h1 (ha.down (seq_pos_le h2)) h1'
      obtain ⟨rfl, rfl⟩ := detSeq h2 ha h2'
      exact ⟨rfl, rfl⟩
end

variable (hc : ∀ x a o, o ∈ cand x a → (⟨x, o⟩ : Production T) ∈ ps)
include hc

/-- A node in the common beginning of two inputs is in both trees. -/
theorem occurs {ns : List (Node L T)} {i j : Nat} {m : Node L T} (ho : Occurs eps ns i m j) {xs : List T} {k k' : Nat}
    (h : PredictedSeq eps ps cand tokens xs i ns k) {ns' : List (Node L T)}
    (h' : PredictedSeq eps ps cand tokens' xs i ns' k')
    (ha : AgreeTo tokens tokens' (j + (leaves eps m).length)) : Occurs eps ns' i m j := by
  induction ho generalizing xs k k' ns' with
  | here n ns i =>
    cases h with
    | cons x xs _ k1 _ _ _ h1 h2 =>
      cases h' with
      | cons _ _ _ k1' _ n' ns' h1' h2' =>
        obtain ⟨rfl, -⟩ := det hw hcf h1 (by rwa [end_eq hw hc h1]) h1'
        exact .here _ _ _
  | behind n ns i m j ho ih =>
    cases h with
    | cons x xs _ k1 _ _ _ h1 h2 =>
      cases h' with
      | cons _ _ _ k1' _ n' ns' h1' h2' =>
        have e := end_eq hw hc h1
        have hle := occurs_le ho
        obtain ⟨rfl, rfl⟩ := det hw hcf h1 (by rw [e]; exact ha.down (by omega)) h1'
        rw [e] at h2 h2'
        exact .behind _ _ _ _ _ (ih h2 h2' ha)
  | inside cs t ns i m j ho ih =>
    cases h with
    | cons x xs _ k1 _ _ _ h1 h2 =>
      cases h' with
      | cons _ _ _ k1' _ n' ns' h1' h2' =>
        have he : ¬ IsNonTerminal ps eps := fun ⟨q, hq, e⟩ => (hw q hq).1 e
        have hle := occurs_le ho
        cases h1 with
        | leaf => cases ho
        | eps => cases ho
        | node _ _ t0 out _ _ h3 h4 h5 h6 =>
          cases h1' with
          | leaf _ _ h1 => exact absurd h3 h1
          | eps => exact absurd h3 he
          | node _ _ t0' out' cs' _ h3' h4' h5' h6' =>
            obtain ⟨t'', h7, h8⟩ := ha.type (by omega) h4
            rw [h7, Option.some.injEq] at h4'
            subst h4'
            rw [h8] at h5'
            obtain rfl := unique hcf h5 h5'
            exact .inside _ _ _ _ _ _ (ih h6 h6' ha)

omit hcf in
/-- A node of a predicted tree is predicted where it begins. -/
theorem predicted_at {ns : List (Node L T)} {i j : Nat} {m : Node L T} (ho : Occurs eps ns i m j) {xs : List T} {k : Nat}
    (h : PredictedSeq eps ps cand tokens xs i ns k) : ∃ b, Predicted eps ps cand tokens m.token.tType j m b := by
  induction ho generalizing xs k with
  | here n ns i =>
    cases h with
    | cons x xs _ k1 _ _ _ h1 h2 => exact ⟨k1, by rw [h1.label]; exact h1⟩
  | behind n ns i m j ho ih =>
    cases h with
    | cons x xs _ k1 _ _ _ h1 h2 =>
      rw [end_eq hw hc h1] at h2
      exact ih h2
  | inside cs t ns i m j ho ih =>
    cases h with
    | cons x xs _ k1 _ _ _ h1 h2 =>
      cases h1 with
      | leaf => cases ho
      | eps => cases ho
      | node _ _ t0 out _ _ h3 h4 h5 h6 => exact ih h6

/-- Nodes of the same symbol are equal if their tokens and the types of the next ones are. -/
theorem same {x : T} {i i' b b' : Nat} {m m' : Node L T} (h : Predicted eps ps cand tokens x i m b)
    (h' : Predicted eps ps cand tokens' x i' m' b')
    (ha : AgreeTo (tokens.drop i) (tokens'.drop i') (leaves eps m).length) : m' = m := by
  have h1 := (h.shift i (Nat.le_refl _)).1
  have h2 := (h'.shift i' (Nat.le_refl _)).1
  rw [Nat.sub_self] at h1 h2
  exact (det hw hcf h1 (by rw [end_eq hw hc h1, Nat.zero_add]; exact ha) h2).1

end Verif.Reuse
