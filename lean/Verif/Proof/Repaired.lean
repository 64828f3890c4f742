import Verif.Spec.Repaired
import Verif.Proof.FixAt

/-! # The pieces of a fix form a sentential form -/

set_option linter.unusedSectionVars false

namespace Verif.Parser.Recovery

open Spec

variable {σ L T : Type} [DecidableEq T] {eps : T} {ps : List (Production T)}
  {solver : Option (Solver σ L T)} {tokens : List (Token L T)}

theorem covers_append {l l' : List (Piece L T)} {i k j : Nat} (h : Covers solver tokens l i k)
    (h' : Covers solver tokens l' k j) : Covers solver tokens (l ++ l') i j := by
  induction h with
  | nil i => exact h'
  | kept t l i j ht _ ih => exact .kept t _ i _ ht (ih h')
  | repaired x l i j r hr _ ih => exact .repaired x _ i _ r hr (ih h')

theorem covers_tokens {w : List (Token L T)} {i : Nat} (h : w <+: tokens.drop i) :
    Covers solver tokens (w.map Piece.kept) i (i + w.length) := by
  induction w generalizing i with
  | nil => exact .nil _
  | cons t w ih =>
    obtain ⟨u, hu⟩ := h
    have ht : tokens[i]? = some t := by
      have := congrArg (fun l => l[0]?) hu
      simp only [List.cons_append, List.getElem?_cons_zero, List.getElem?_drop, Nat.add_zero] at this
      exact this.symm
    have hd : w <+: tokens.drop (i + 1) := by
      refine ⟨u, ?_⟩
      rw [← List.drop_drop, ← hu]
      simp
    have := ih hd
    rw [List.length_cons, show i + (w.length + 1) = i + 1 + w.length by omega]
    exact .kept t _ i _ ht this

theorem keptTokens_append (l l' : List (Piece L T)) :
    keptTokens (l ++ l') = keptTokens l ++ keptTokens l' := by
  induction l with
  | nil => rfl
  | cons a l ih => cases a <;> simp [keptTokens, ih]

theorem keptTokens_kept (w : List (Token L T)) : keptTokens (w.map Piece.kept) = w := by
  induction w with
  | nil => rfl
  | cons t w ih => simp [keptTokens, ih]

/-- The symbols of an output, without an `eps`. -/
def rhsOf (eps : T) (xs : List T) : List T := if xs = [eps] then [] else xs

theorem fixAt_pieces (hw : WellFormed eps ps) {x : T} {i j : Nat} {w : List (Token L T)}
    {fs : FixedSymbol L T} (h : FixAt eps ps solver tokens x i j w fs) :
    ∃ l, Covers solver tokens l i j ∧ keptTokens l = w ∧ Derives eps ps [x] (l.map Piece.symbol) ∧
      (∀ y, Piece.repaired y ∈ l → y = x ∨ IsNonTerminal ps y) ∧ ∃ y, Piece.repaired y ∈ l := by
  refine FixAt.rec (eps := eps) (ps := ps) (solver := solver) (tokens := tokens)
    (motive_1 := fun x i j w _ _ => ∃ l, Covers solver tokens l i j ∧ keptTokens l = w ∧
      Derives eps ps [x] (l.map Piece.symbol) ∧
      (∀ y, Piece.repaired y ∈ l → y = x ∨ IsNonTerminal ps y) ∧ ∃ y, Piece.repaired y ∈ l)
    (motive_2 := fun xs i j w parts _ => (xs = [eps] ∨ eps ∉ xs) → ∃ l, Covers solver tokens l i j ∧
      keptTokens l = w ∧ Derives eps ps (rhsOf eps xs) (l.map Piece.symbol) ∧
      (∀ y, Piece.repaired y ∈ l → IsNonTerminal ps y) ∧
      ((∃ fs, FixedProductionPart.fixed fs ∈ parts) → ∃ y, Piece.repaired y ∈ l))
    ?_ ?_ ?_ ?_ ?_ h
  · intro x i r hr
    refine ⟨[.repaired x], .repaired x _ i _ r hr (.nil _), rfl, .refl _, ?_, x, by simp⟩
    intro y hy
    simp only [List.mem_singleton, Piece.repaired.injEq] at hy
    exact .inl hy
  · intro p i j w parts hp _ hf ih
    have heps : p.output = [eps] ∨ eps ∉ p.output := by
      by_cases he : eps ∈ p.output
      · left
        have hl := (hw p hp).2.2 he
        match hpo : p.output, hl with
        | [z], _ => rw [hpo] at he; simp at he; rw [he]
      · exact .inr he
    obtain ⟨l, h1, hw', h2, h3, h4⟩ := ih heps
    refine ⟨l, h1, hw', ?_, fun y hy => .inr (h3 y hy), h4 hf⟩
    exact (Derives.of_step (Step.of_production (eps := eps) hp)).trans h2
  · intro i hxs
    refine ⟨[], .nil _, rfl, ?_, by simp, by simp⟩
    simp only [rhsOf]
    exact .refl _
  · intro x xs i j w w' n parts ht hpre _ ih hxs
    rcases isTree_derives hw ht with ⟨rfl, rfl⟩ | ⟨hne, hd⟩
    · -- an `eps` leaf
      have hnil : xs = [] := by
        rcases hxs with e | e
        · simpa using e
        · simp at e
      subst hnil
      obtain ⟨l, h1, hw', h2, h3, h4⟩ := ih (.inr (by simp))
      refine ⟨l, by simpa using h1, by simpa using hw', ?_, h3, ?_⟩
      · simpa [rhsOf] using h2
      · rintro ⟨fs, hfs⟩
        exact h4 ⟨fs, by simpa using hfs⟩
    · have hin : eps ∉ x :: xs := by
        rcases hxs with e | e
        · simp only [List.cons.injEq] at e
          exact absurd e.1 hne
        · exact e
      obtain ⟨l, h1, hw', h2, h3, h4⟩ := ih (.inr (fun he => hin (by simp [he])))
      refine ⟨w.map Piece.kept ++ l, covers_append (covers_tokens hpre) h1,
        by rw [keptTokens_append, keptTokens_kept, hw'], ?_, ?_, ?_⟩
      · have hs : rhsOf eps (x :: xs) = x :: xs := by
          unfold rhsOf
          rw [if_neg]
          intro e
          exact hin (by rw [e]; simp)
        have hs' : rhsOf eps xs = xs := by
          unfold rhsOf
          rw [if_neg]
          intro e
          exact hin (by rw [e]; simp)
        rw [hs]
        rw [hs'] at h2
        have e1 : (w.map Piece.kept).map Piece.symbol = w.map (·.tType) := by
          rw [List.map_map]; rfl
        rw [List.map_append, e1]
        have d1 := Derives.context [] xs hd
        have d2 := Derives.context (w.map (·.tType)) [] h2
        simp only [List.nil_append, List.append_nil, List.singleton_append] at d1 d2
        exact d1.trans d2
      · intro y hy
        rcases List.mem_append.1 hy with hy | hy
        · simp at hy
        · exact h3 y hy
      · rintro ⟨fs, hfs⟩
        obtain ⟨y, hy⟩ := h4 ⟨fs, by simpa using hfs⟩
        exact ⟨y, by simp [hy]⟩
  · intro x xs i k j w w' fs parts hx _ _ ih1 ih2 hxs
    have hne : x ≠ eps := by
      rintro rfl
      obtain ⟨q, hq, e⟩ := hx
      exact (hw q hq).1 e
    have hin : eps ∉ x :: xs := by
      rcases hxs with e | e
      · simp only [List.cons.injEq] at e
        exact absurd e.1 hne
      · exact e
    obtain ⟨l1, a1, hw1, a2, a3, y1, a4⟩ := ih1
    obtain ⟨l, h1, hw', h2, h3, h4⟩ := ih2 (.inr (fun he => hin (by simp [he])))
    refine ⟨l1 ++ l, covers_append a1 h1, by rw [keptTokens_append, hw1, hw'], ?_, ?_, fun _ => ⟨y1, by simp [a4]⟩⟩
    · have hs : rhsOf eps (x :: xs) = x :: xs := by
        unfold rhsOf
        rw [if_neg]
        intro e
        exact hin (by rw [e]; simp)
      have hs' : rhsOf eps xs = xs := by
        unfold rhsOf
        rw [if_neg]
        intro e
        exact hin (by rw [e]; simp)
      rw [hs]
      rw [hs'] at h2
      rw [List.map_append]
      have d1 := Derives.context [] xs a2
      have d2 := Derives.context (l1.map Piece.symbol) [] h2
      simp only [List.nil_append, List.append_nil, List.singleton_append] at d1 d2
      exact d1.trans d2
    · intro y hy
      rcases List.mem_append.1 hy with hy | hy
      · rcases a3 y hy with rfl | h
        · exact hx
        · exact h
      · exact h3 y hy

theorem filled_derives {l : List (Piece L T)} {w : List T} (h : Filled eps ps l w) :
    Derives eps ps (l.map Piece.symbol) w := by
  induction h with
  | nil => exact .refl _
  | kept t l w _ ih =>
    have := Derives.context [t.tType] [] ih
    simpa [Piece.symbol] using this
  | repaired x l v w hv _ ih =>
    have d1 := Derives.context [] (l.map Piece.symbol) hv
    have d2 := Derives.context v [] ih
    simp only [List.nil_append, List.append_nil, List.singleton_append] at d1 d2
    simpa [Piece.symbol] using d1.trans d2

theorem repairedTree_isTree {x : T} {i j : Nat} {fs : FixedSymbol L T} {w : List (Token L T)}
    {n : Node L T} (h : RepairedTree eps ps solver tokens x i j fs w n) : IsTree eps ps x w n := by
  refine RepairedTree.rec (eps := eps) (ps := ps) (solver := solver) (tokens := tokens)
    (motive_1 := fun x _ _ _ w n _ => IsTree eps ps x w n)
    (motive_2 := fun xs _ _ _ w ns _ => IsForest eps ps xs w ns) ?_ ?_ ?_ ?_ ?_ h
  · intro x i r w n _ h
    exact h
  · intro p i j parts w ns hp _ _ ih
    exact .node p w ns hp ih
  · intro _
    exact .nil
  · intro x xs i j n parts w w' ns h1 _ _ ih
    exact .cons x xs w w' n ns h1 ih
  · intro x xs i k j fs n parts w w' ns _ _ ih1 ih2
    exact .cons x xs w w' n ns ih1 ih2

/-- If every non-terminal has a tree, a fix can be repaired. -/
theorem repairedTree_exists (hprod : ∀ x, IsNonTerminal ps x → ∃ (w : List (Token L T)) (n : Node L T), IsTree eps ps x w n)
    {x : T} {i j : Nat} {v : List (Token L T)} {fs : FixedSymbol L T} (hx : IsNonTerminal ps x)
    (h : FixAt eps ps solver tokens x i j v fs) : ∃ w n, RepairedTree eps ps solver tokens x i j fs w n := by
  refine FixAt.rec (eps := eps) (ps := ps) (solver := solver) (tokens := tokens)
    (motive_1 := fun x i j _ fs _ => IsNonTerminal ps x → ∃ w n, RepairedTree eps ps solver tokens x i j fs w n)
    (motive_2 := fun xs i j _ parts _ => ∃ w ns, RepairedParts eps ps solver tokens xs i j parts w ns)
    ?_ ?_ ?_ ?_ ?_ h hx
  · intro x i r hr hx
    obtain ⟨w, n, hn⟩ := hprod x hx
    exact ⟨w, n, .replaced x i r w n hr hn⟩
  · intro p i j v parts hp _ hf ih _
    obtain ⟨w, ns, h1⟩ := ih
    exact ⟨w, _, .built p i j parts w ns hp h1 hf⟩
  · intro i
    exact ⟨_, _, .nil i⟩
  · intro x xs i j w w' n parts h1 h2 _ ih
    obtain ⟨w2, ns, h3⟩ := ih
    exact ⟨_, _, .kept x xs i j n parts w w2 ns h1 h2 h3⟩
  · intro x xs i k j w w' fs parts hx _ _ ih1 ih2
    obtain ⟨w1, n, h1⟩ := ih1 hx
    obtain ⟨w2, ns, h2⟩ := ih2
    exact ⟨_, _, .fixed x xs i k j fs n parts w1 w2 ns h1 h2⟩

end Verif.Parser.Recovery
