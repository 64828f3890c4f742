import Verif.Proof.TreeSize
import Verif.Spec.TreeMeasure

/-! # The height of parse trees is linear in the number of tokens -/

set_option linter.unusedSectionVars false

namespace Verif.Parser

open Spec

variable {L T : Type} [DecidableEq T] {eps : T} {ps : List (Production T)}

theorem height_mk {ns : List (Node L T)} (h : ns ≠ []) (t : Token L T) :
    height (.mk ns t) = 1 + heightList ns := by
  cases ns with
  | nil => exact absurd rfl h
  | cons c cs => simp [height, heightList]

theorem forest_ne_nil (hw : WellFormed eps ps) {q : Production T} (hq : q ∈ ps) {w : List (Token L T)}
    {ns : List (Node L T)} (hf : IsForest eps ps q.output w ns) : ns ≠ [] := by
  rintro rfl
  have : q.output = [] := by
    generalize q.output = o at hf
    cases hf; rfl
  exact (hw q hq).2.1 this

theorem leadRank_output (hw : WellFormed eps ps) (hnlr : NotLeftRecursive eps ps) {q : Production T}
    (hq : q ∈ ps) : LeadRank eps ps q.output (cornerRank eps ps q.input) := by
  intro u y v e hu hy
  have hq' : (⟨q.input, u ++ y :: v⟩ : Production T) ∈ ps := by rw [← e]; exact hq
  exact cornerRank_lt hnlr hy (corner_of_prefix hw hq' hy hu)

mutual
theorem tree_height (hw : WellFormed eps ps) (hnlr : NotLeftRecursive eps ps) {x : T}
    {w : List (Token L T)} {n : Node L T} : IsTree eps ps x w n →
    (IsNonTerminal ps x → height n ≤ (nts ps).card * w.length + (cornerRank eps ps x + 1)) ∧
    (¬ IsNonTerminal ps x → height n = 0)
  | .leaf t h _ => ⟨fun h' => absurd h' h, fun _ => rfl⟩
  | .eps => ⟨fun ⟨q, hq, e⟩ => absurd e (hw q hq).1, fun _ => rfl⟩
  | .node q w ns hq hf => by
    refine ⟨fun hx => ?_, fun h => absurd ⟨q, hq, rfl⟩ h⟩
    have := (forest_height hw hnlr hf).2 _ (leadRank_output hw hnlr hq)
    rw [height_mk (forest_ne_nil hw hq hf)]
    omega
theorem forest_height (hw : WellFormed eps ps) (hnlr : NotLeftRecursive eps ps) {xs : List T}
    {w : List (Token L T)} {ns : List (Node L T)} : IsForest eps ps xs w ns →
    heightList ns ≤ (nts ps).card * w.length + (nts ps).card ∧
    ∀ R, LeadRank eps ps xs R → heightList ns ≤ (nts ps).card * w.length + R
  | .nil => ⟨by simp [heightList], fun R _ => by simp [heightList]⟩
  | .cons x xs w1 w2 n ns ht hf => by
    obtain ⟨t1, t2⟩ := tree_height hw hnlr ht
    obtain ⟨f1, f2⟩ := forest_height hw hnlr hf
    have hdm : (nts ps).card * (w1 ++ w2).length =
        (nts ps).card * w1.length + (nts ps).card * w2.length := by
      rw [List.length_append, Nat.mul_add]
    rw [hdm, heightList]
    refine ⟨?_, fun R hlead => ?_⟩
    · by_cases hn : IsNonTerminal ps x
      · have h1 := t1 hn
        have h2 := cornerRank_lt_card hnlr hn
        omega
      · have h1 := t2 hn
        omega
    · have h1 : height n ≤ (nts ps).card * w1.length + R := by
        by_cases hn : IsNonTerminal ps x
        · have h1 := t1 hn
          have h2 := hlead [] x xs rfl (by simp) hn
          omega
        · have h1 := t2 hn
          omega
      by_cases he : w1 = []
      · have hx : x = eps ∨ Nullable eps ps x := by
          subst he
          rcases isTree_derives hw ht with ⟨h', _⟩ | ⟨_, h'⟩
          · exact .inl h'
          · exact .inr (by simpa [Nullable] using h')
        have h2 := f2 R (hlead.tail hx)
        omega
      · have h2 : (nts ps).card * 1 ≤ (nts ps).card * w1.length :=
          Nat.mul_le_mul_left _ (List.length_pos_iff.2 he)
        omega
end

mutual
theorem nodes_le_inner {m : Nat} (hw : WellFormed eps ps) (hm : ∀ q ∈ ps, q.output.length ≤ m) {x : T}
    {w : List (Token L T)} {n : Node L T} : IsTree eps ps x w n → nodes n ≤ 1 + m * inner n
  | .leaf t h _ => by simp [nodes, nodesList]
  | .eps => by simp [nodes, nodesList]
  | .node q w ns hq hf => by
    have h1 := nodes_le_innerList hw hm hf
    have h2 := hm q hq
    rw [inner_mk (forest_ne_nil hw hq hf), nodes, Nat.mul_add]
    omega
theorem nodes_le_innerList {m : Nat} (hw : WellFormed eps ps) (hm : ∀ q ∈ ps, q.output.length ≤ m)
    {xs : List T} {w : List (Token L T)} {ns : List (Node L T)} : IsForest eps ps xs w ns →
    nodesList ns ≤ xs.length + m * innerList ns
  | .nil => by simp [nodesList]
  | .cons x xs w1 w2 n ns ht hf => by
    have h1 := nodes_le_inner hw hm ht
    have h2 := nodes_le_innerList hw hm hf
    rw [nodesList, innerList, Nat.mul_add, List.length_cons]
    omega
end

/-- The number of nodes is linear in the number of tokens. -/
theorem nodes_linear (hw : WellFormed eps ps) (hnlr : NotLeftRecursive eps ps) :
    ∃ c, ∀ (L : Type) (x : T) (w : List (Token L T)) (n : Node L T), IsTree eps ps x w n →
      nodes n ≤ c * (w.length + 1) := by
  obtain ⟨m, hm⟩ : ∃ m, ∀ q ∈ ps, q.output.length ≤ m :=
    ⟨((ps.map (·.output.length)).foldr max 0), fun q hq => by
      clear hw hnlr
      induction ps with
      | nil => simp at hq
      | cons a l ih =>
        rcases List.mem_cons.1 hq with rfl | hq
        · simp
        · have := ih hq
          simp only [List.map_cons, List.foldr_cons]
          omega⟩
  obtain ⟨B, hB⟩ : ∃ B, B = 1 + m * emptySize m (nts ps).card := ⟨_, rfl⟩
  refine ⟨1 + m * ((nts ps).card * B), ?_⟩
  intro L x w n ht
  have h1 := nodes_le_inner hw hm ht
  obtain ⟨h2, h3⟩ := tree_size hw hnlr hm (Nat.le_of_eq hB.symm) ht
  have h4 : inner n ≤ (nts ps).card * B * (w.length + 1) := by
    by_cases hx : IsNonTerminal ps x
    · have h5 := h2 hx
      have h6 := cornerRank_lt_card hnlr hx
      unfold treeBound at h5
      have h8 : (cornerRank eps ps x + 1) * B ≤ (nts ps).card * B := Nat.mul_le_mul_right _ h6
      split at h5
      · have h7 := emptySize_mono m (a := cornerRank eps ps x + 1) (b := (nts ps).card) h6
        have h10 : emptySize m (nts ps).card ≤ B := by
          cases m with
          | zero =>
            generalize (nts ps).card = N at *
            cases N with
            | zero => simp [emptySize]
            | succ N => simp [emptySize] at *; omega
          | succ m => rw [hB, Nat.add_mul, Nat.one_mul]; omega
        have h9 : 1 * B ≤ (nts ps).card * B := Nat.mul_le_mul_right _ (by omega)
        have h11 : (nts ps).card * B * 1 ≤ (nts ps).card * B * (w.length + 1) :=
          Nat.mul_le_mul_left _ (by omega)
        omega
      · have h9 : (nts ps).card * B * (w.length - 1 + 1) ≤ (nts ps).card * B * (w.length + 1) :=
          Nat.mul_le_mul_left _ (by omega)
        rw [Nat.mul_add] at h9
        omega
    · rw [h3 hx]; exact Nat.zero_le _
  calc nodes n ≤ 1 + m * inner n := h1
    _ ≤ 1 + m * ((nts ps).card * B * (w.length + 1)) := by
      have := Nat.mul_le_mul_left m h4; omega
    _ ≤ (1 + m * ((nts ps).card * B)) * (w.length + 1) := by
      rw [Nat.add_mul, ← Nat.mul_assoc]; omega

end Verif.Parser
