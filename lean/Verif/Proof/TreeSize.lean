import Verif.Proof.Depth

/-! # The size of parse trees is linear in the number of tokens -/

set_option linter.unusedSectionVars false

namespace Verif.Parser

open Spec

variable {σ L T : Type} [DecidableEq T] {eps init : T} {ps : List (Production T)}

mutual
/-- The number of nodes with children. -/
def inner : Node L T → Nat
  | .mk [] _ => 0
  | .mk (c :: cs) _ => 1 + inner c + innerList cs
/-- The same for a list of trees. -/
def innerList : List (Node L T) → Nat
  | [] => 0
  | n :: ns => inner n + innerList ns
end

theorem innerList_append (a b : List (Node L T)) : innerList (a ++ b) = innerList a + innerList b := by
  induction a with
  | nil => simp [innerList]
  | cons n a ih => simp [innerList, ih, Nat.add_assoc]

theorem inner_mk {ns : List (Node L T)} (h : ns ≠ []) (t : Token L T) :
    inner (.mk ns t) = 1 + innerList ns := by
  cases ns with
  | nil => exact absurd rfl h
  | cons c cs => simp [inner, innerList, Nat.add_assoc]

/-- A non-terminal behind symbols that vanish is a left corner. -/
theorem corner_of_prefix (hw : WellFormed eps ps) {x y : T} {u v : List T}
    (hout : (⟨x, u ++ y :: v⟩ : Production T) ∈ ps) (hy : IsNonTerminal ps y)
    (hu : ∀ z ∈ u, z = eps ∨ Nullable eps ps z) : Corner eps ps y x := by
  have hye : y ≠ eps := by
    obtain ⟨r, hr, hr2⟩ := hy
    exact fun e => (hw r hr).1 (hr2.trans e)
  have heps : eps ∉ u := by
    intro he
    have hl := (hw _ hout).2.2 (by simp [he])
    simp only [List.length_append, List.length_cons] at hl
    have : u = [] := List.length_eq_zero_iff.1 (by omega)
    subst this
    simp at he
  refine ⟨v, u ++ y :: v, ?_, ?_⟩
  · have hr : rhs eps (⟨x, u ++ y :: v⟩ : Production T) = u ++ y :: v := by
      unfold rhs
      rw [if_neg]
      intro e
      simp only at e
      have : y ∈ u ++ y :: v := by simp
      rw [e] at this
      exact hye (by simpa using this)
    have := Step.of_production (eps := eps) hout
    rw [hr] at this
    exact this
  · have hd : Derives eps ps u [] := by
      apply StrNullable.derives
      intro z hz
      rcases hu z hz with rfl | h'
      · exact absurd hz heps
      · exact h'
    have := Derives.context [] (y :: v) hd
    simpa using this

/-- The size of a tree of rank `r` over no tokens, if no output is longer than `m`. -/
def emptySize (m : Nat) : Nat → Nat
  | 0 => 0
  | r + 1 => 1 + m * emptySize m r

theorem emptySize_mono (m : Nat) {a b : Nat} (h : a ≤ b) : emptySize m a ≤ emptySize m b := by
  induction b generalizing a with
  | zero => have : a = 0 := by omega
            subst this; exact Nat.le_refl _
  | succ b ih =>
    cases a with
    | zero => simp [emptySize]
    | succ a =>
      have := Nat.mul_le_mul_left m (ih (a := a) (by omega))
      simp only [emptySize]
      omega

/-- The size bound for a tree of rank `r` over `k` tokens. -/
def treeBound (m N B r k : Nat) : Nat := if k = 0 then emptySize m r else N * B * (k - 1) + r * B

/-- The symbols that can be reached without a token have rank at most `R`. -/
def LeadRank (eps : T) (ps : List (Production T)) (xs : List T) (R : Nat) : Prop :=
  ∀ u y v, xs = u ++ y :: v → (∀ z ∈ u, z = eps ∨ Nullable eps ps z) → IsNonTerminal ps y →
    cornerRank eps ps y + 1 ≤ R

theorem LeadRank.tail {x : T} {xs : List T} {R : Nat} (h : LeadRank eps ps (x :: xs) R)
    (hx : x = eps ∨ Nullable eps ps x) : LeadRank eps ps xs R := by
  intro u y v e hu hy
  refine h (x :: u) y v (by simp [e]) ?_ hy
  intro z hz
  rcases List.mem_cons.1 hz with rfl | hz
  · exact hx
  · exact hu z hz

/-- What is claimed of a tree. -/
def TreeSize (eps : T) (ps : List (Production T)) (m B : Nat) (x : T) (w : List (Token L T))
    (n : Node L T) : Prop :=
  (IsNonTerminal ps x → inner n ≤ treeBound m (nts ps).card B (cornerRank eps ps x + 1) w.length) ∧
  (¬ IsNonTerminal ps x → inner n = 0)

/-- What is claimed of a forest. -/
def ForestSize (eps : T) (ps : List (Production T)) (m B : Nat) (xs : List T) (w : List (Token L T))
    (ns : List (Node L T)) : Prop :=
  innerList ns ≤ xs.length * emptySize m (nts ps).card + (nts ps).card * B * w.length ∧
  ∀ R, R ≤ (nts ps).card → LeadRank eps ps xs R →
    (w = [] → innerList ns ≤ xs.length * emptySize m R) ∧
    (w ≠ [] → innerList ns ≤ xs.length * emptySize m (nts ps).card +
      (nts ps).card * B * (w.length - 1) + R * B)

mutual
theorem tree_size (hw : WellFormed eps ps) (hnlr : NotLeftRecursive eps ps) {m B : Nat}
    (hm : ∀ q ∈ ps, q.output.length ≤ m) (hB : 1 + m * emptySize m (nts ps).card ≤ B) {x : T}
    {w : List (Token L T)} {n : Node L T} : IsTree eps ps x w n → TreeSize eps ps m B x w n
  | .leaf t h _ => ⟨fun h' => absurd h' h, fun _ => rfl⟩
  | .eps => ⟨fun ⟨q, hq, e⟩ => absurd e (hw q hq).1, fun _ => rfl⟩
  | .node q w ns hq hf => by
    refine ⟨fun hx => ?_, fun h => absurd ⟨q, hq, rfl⟩ h⟩
    have hlt := cornerRank_lt_card hnlr hx
    have ih := forest_size hw hnlr hm hB hf
    have hns : ns ≠ [] := by
      rintro rfl
      have : q.output = [] := by
        generalize q.output = o at hf
        cases hf; rfl
      exact (hw q hq).2.1 this
    have hlead : LeadRank eps ps q.output (cornerRank eps ps q.input) := by
      intro u y v e hu hy
      have hq' : (⟨q.input, u ++ y :: v⟩ : Production T) ∈ ps := by rw [← e]; exact hq
      exact cornerRank_lt hnlr hy (corner_of_prefix hw hq' hy hu)
    obtain ⟨h1, h2⟩ := ih.2 _ (by omega) hlead
    rw [inner_mk hns]
    unfold treeBound
    have hmq := hm q hq
    split
    · rename_i h0
      have := h1 (List.length_eq_zero_iff.1 h0)
      have h3 := Nat.mul_le_mul_right (emptySize m (cornerRank eps ps q.input)) hmq
      simp only [emptySize]
      omega
    · rename_i h0
      have := h2 (fun e => h0 (by simp [e]))
      have h3 := Nat.mul_le_mul_right (emptySize m (nts ps).card) hmq
      rw [Nat.add_mul]
      omega
theorem forest_size (hw : WellFormed eps ps) (hnlr : NotLeftRecursive eps ps) {m B : Nat}
    (hm : ∀ q ∈ ps, q.output.length ≤ m) (hB : 1 + m * emptySize m (nts ps).card ≤ B) {xs : List T}
    {w : List (Token L T)} {ns : List (Node L T)} :
    IsForest eps ps xs w ns → ForestSize eps ps m B xs w ns
  | .nil => ⟨by simp [innerList], fun R _ _ => ⟨fun _ => by simp [innerList], fun h => absurd rfl h⟩⟩
  | .cons x xs w1 w2 n ns ht hf => by
    obtain ⟨t1, t2⟩ := tree_size hw hnlr hm hB ht
    obtain ⟨f1, f2⟩ := forest_size hw hnlr hm hB hf
    have hdm : (nts ps).card * B * (w1 ++ w2).length =
        (nts ps).card * B * w1.length + (nts ps).card * B * w2.length := by
      rw [List.length_append, Nat.mul_add]
    have hsm : ∀ k, (x :: xs).length * k = xs.length * k + k := by
      intro k; rw [List.length_cons, Nat.add_mul, Nat.one_mul]
    -- the head, for any rank bound
    have head : ∀ R, R ≤ (nts ps).card → (IsNonTerminal ps x → cornerRank eps ps x + 1 ≤ R) →
        (w1 = [] → inner n ≤ emptySize m R) ∧
        (w1 ≠ [] → inner n ≤ (nts ps).card * B * (w1.length - 1) + R * B) := by
      intro R hR hx
      by_cases hn : IsNonTerminal ps x
      · have h1 := t1 hn
        have h2 := hx hn
        unfold treeBound at h1
        refine ⟨fun e => ?_, fun e => ?_⟩
        · subst e
          simp only [List.length_nil, if_true] at h1
          exact Nat.le_trans h1 (emptySize_mono m h2)
        · rw [if_neg (by simpa using e)] at h1
          have := Nat.mul_le_mul_right B h2
          omega
      · rw [t2 hn]
        exact ⟨fun _ => Nat.zero_le _, fun _ => Nat.zero_le _⟩
    refine ⟨?_, ?_⟩
    · obtain ⟨h1, h2⟩ := head (nts ps).card (Nat.le_refl _) (fun hn => cornerRank_lt_card hnlr hn)
      rw [innerList, hdm, hsm]
      by_cases he : w1 = []
      · have := h1 he
        subst he
        simp only [List.length_nil, Nat.mul_zero, Nat.zero_add]
        omega
      · have := h2 he
        obtain ⟨k, hk⟩ : ∃ k, w1.length = k + 1 :=
          ⟨w1.length - 1, by have := List.length_pos_iff.2 he; omega⟩
        rw [hk] at this ⊢
        rw [Nat.add_sub_cancel] at this
        rw [Nat.mul_add, Nat.mul_one]
        omega
    · intro R hR hlead
      obtain ⟨h1, h2⟩ := head R hR (fun hn => hlead [] x xs rfl (by simp) hn)
      rw [innerList, hsm, hsm]
      have hE := emptySize_mono m hR
      by_cases he : w1 = []
      · have hx : x = eps ∨ Nullable eps ps x := by
          subst he
          rcases isTree_derives hw ht with ⟨h', _⟩ | ⟨_, h'⟩
          · exact .inl h'
          · exact .inr (by simpa [Nullable] using h')
        obtain ⟨g1, g2⟩ := f2 R hR (hlead.tail hx)
        have := h1 he
        subst he
        simp only [List.nil_append]
        exact ⟨fun e => by have := g1 e; omega, fun e => by have := g2 e; omega⟩
      · refine ⟨fun e => absurd (List.append_eq_nil_iff.1 e).1 he, fun _ => ?_⟩
        have := h2 he
        obtain ⟨k, hk⟩ : ∃ k, w1.length = k + 1 :=
          ⟨w1.length - 1, by have := List.length_pos_iff.2 he; omega⟩
        rw [List.length_append, hk, show k + 1 + w2.length - 1 = k + w2.length by omega, Nat.mul_add]
        rw [hk, Nat.add_sub_cancel] at this
        omega
end

end Verif.Parser
