import Verif.Proof.LL1

/-! # LL(1) grammars are unambiguous -/

set_option linter.unusedSectionVars false

namespace Verif.Spec

variable {L T : Type} [DecidableEq T] {eps init : T} {ps : List (Production T)}

theorem isTree_iff {x : T} {w : List (Token L T)} {n : Node L T} :
    IsTree eps ps x w n ↔
      (¬ IsNonTerminal ps x ∧ x ≠ eps ∧ ∃ l, w = [⟨l, x⟩] ∧ n = .mk [] ⟨l, x⟩) ∨
      (x = eps ∧ w = [] ∧ n = .mk [] ⟨none, x⟩) ∨
      ∃ q ∈ ps, q.input = x ∧ ∃ ns, IsForest eps ps q.output w ns ∧ n = .mk ns ⟨none, x⟩ := by
  constructor
  · intro h
    cases h with
    | leaf t h1 h2 => exact .inl ⟨h1, h2, t.lex, rfl, rfl⟩
    | eps => exact .inr (.inl ⟨rfl, rfl, rfl⟩)
    | node q w ns hq hf => exact .inr (.inr ⟨q, hq, rfl, ns, hf, rfl⟩)
  · rintro (⟨h1, h2, l, rfl, rfl⟩ | ⟨rfl, rfl, rfl⟩ | ⟨q, hq, rfl, ns, hf, rfl⟩)
    · exact .leaf ⟨l, x⟩ h1 h2
    · exact .eps
    · exact .node q w ns hq hf

theorem isForest_cons {x : T} {xs : List T} {w : List (Token L T)}
    {ns : List (Node L T)} : IsForest eps ps (x :: xs) w ns ↔
      ∃ w1 w2 n ns', w = w1 ++ w2 ∧ ns = n :: ns' ∧ IsTree eps ps x w1 n ∧ IsForest eps ps xs w2 ns' := by
  constructor
  · intro h
    cases h with
    | cons _ _ w1 w2 n ns h1 h2 => exact ⟨w1, w2, n, ns, rfl, rfl, h1, h2⟩
  · rintro ⟨w1, w2, n, ns', rfl, rfl, h1, h2⟩
    exact .cons _ _ _ _ _ _ h1 h2

theorem isForest_nil {w : List (Token L T)}
    {ns : List (Node L T)} : IsForest eps ps [] w ns ↔ w = [] ∧ ns = [] := by
  constructor
  · intro h; cases h; exact ⟨rfl, rfl⟩
  · rintro ⟨rfl, rfl⟩; exact .nil

theorem IsLL1.eq (h : IsLL1 eps ps) {p q : Production T} (hp : p ∈ ps) (hq : q ∈ ps)
    (hi : p.input = q.input) {a : T} (h1 : Predicts eps ps p a) (h2 : Predicts eps ps q a) : p = q := by
  by_contra hne
  have key : ∀ l : List (Production T), l.Pairwise (fun p q => p.input = q.input →
      ∀ a, ¬ (Predicts eps ps p a ∧ Predicts eps ps q a)) → p ∈ l → q ∈ l → False := by
    intro l hl hp hq
    induction hl with
    | nil => simp at hp
    | cons hx _ ih =>
      rcases List.mem_cons.1 hp with h3 | h3 <;> rcases List.mem_cons.1 hq with h4 | h4
      · exact hne (h3.trans h4.symm)
      · exact hx q h4 (h3 ▸ hi) a ⟨h3 ▸ h1, h2⟩
      · exact hx p h3 (h4 ▸ hi.symm) a ⟨h4 ▸ h2, h1⟩
      · exact ih h3 h4
  exact key ps h hp hq

/-- What stands behind a tree allows to see where it ends. -/
def TreeCtx (eps : T) (ps : List (Production T)) (x : T) (n : Node L T) (post : List (Token L T)) : Prop :=
  (∃ t post', post = t :: post' ∧ CanFollow eps ps x t.tType) ∨ ¬ EndsEmpty eps ps n

def ForestCtx (eps : T) (ps : List (Production T)) (A : T) (ns : List (Node L T))
    (post : List (Token L T)) : Prop :=
  (∃ t post', post = t :: post' ∧ CanFollow eps ps A t.tType) ∨
    ¬ ∃ a c b, ns = a ++ c :: b ∧ leavesList eps b = [] ∧ EndsEmpty eps ps c

theorem TreeCtx.children {x : T} {ns : List (Node L T)} {t : Token L T} {post : List (Token L T)}
    (h : TreeCtx eps ps x (.mk ns t) post) : ForestCtx eps ps x ns post := by
  rcases h with h | h
  · exact .inl h
  · refine .inr ?_
    rintro ⟨a, c, b, rfl, hb, hc⟩
    exact h (.last a c b _ hb hc)

theorem ForestCtx.tail {x : T} {n : Node L T} {ns : List (Node L T)} {post : List (Token L T)}
    (h : ForestCtx eps ps x (n :: ns) post) : ForestCtx eps ps x ns post := by
  rcases h with h | h
  · exact .inl h
  · refine .inr ?_
    rintro ⟨a, c, b, rfl, hb, hc⟩
    exact h ⟨n :: a, c, b, rfl, hb, hc⟩

/-- Two trees of a symbol of an LL(1) grammar over beginnings of the same tokens are equal. -/
theorem ll1_tree_unique (hw : WellFormed eps ps) (hll : IsLL1 eps ps) {x : T} {w : List (Token L T)}
    {n : Node L T} (h : IsTree eps ps x w n) {w' post post' : List (Token L T)} {n' : Node L T}
    (h' : IsTree eps ps x w' n') (he : w ++ post = w' ++ post') (hc : TreeCtx eps ps x n post)
    (hc' : TreeCtx eps ps x n' post') : w = w' ∧ n = n' := by
  revert w' post post' n'
  refine IsTree.rec (eps := eps) (ps := ps)
    (motive_1 := fun x w n _ => ∀ {w' post post' : List (Token L T)} {n' : Node L T},
      IsTree eps ps x w' n' → w ++ post = w' ++ post' → TreeCtx eps ps x n post →
      TreeCtx eps ps x n' post' → w = w' ∧ n = n')
    (motive_2 := fun xs w ns _ => ∀ (A : T) (before : List T) {w' post post' : List (Token L T)}
      {ns' : List (Node L T)}, (⟨A, before ++ xs⟩ : Production T) ∈ ps → IsForest eps ps xs w' ns' →
      w ++ post = w' ++ post' → ForestCtx eps ps A ns post → ForestCtx eps ps A ns' post' →
      w = w' ∧ ns = ns') ?_ ?_ ?_ ?_ ?_ h
  · intro t hnt hne w' post post' n' h' he _ _
    rw [isTree_iff] at h'
    rcases h' with ⟨_, _, l, rfl, rfl⟩ | ⟨hc, _⟩ | ⟨q, hq, hqi, _⟩
    · simp only [List.cons_append, List.nil_append, List.cons.injEq] at he
      rw [he.1]
      exact ⟨rfl, rfl⟩
    · exact absurd hc hne
    · exact absurd ⟨q, hq, hqi⟩ hnt
  · intro w' post post' n' h' _ _ _
    rw [isTree_iff] at h'
    rcases h' with ⟨_, hc, _⟩ | ⟨_, rfl, rfl⟩ | ⟨q, hq, hqi, _⟩
    · exact absurd rfl hc
    · exact ⟨rfl, rfl⟩
    · exact absurd hqi (hw q hq).1
  · intro q w ns hq hf ih w' post post' n' h' he hc hc'
    rw [isTree_iff] at h'
    rcases h' with ⟨hc, _⟩ | ⟨hc, _⟩ | ⟨q', hq', hqi, ns', hf', rfl⟩
    · exact absurd ⟨q, hq, rfl⟩ hc
    · exact absurd hc (hw q hq).1
    · obtain ⟨t, r, e1, p1⟩ := Parser.predicts_of_tree hw hq hf hc
      rw [← hqi] at hc'
      obtain ⟨t', r', e2, p2⟩ := Parser.predicts_of_tree hw hq' hf' hc'
      rw [e1, e2] at he
      simp only [List.cons.injEq] at he
      rw [← he.1] at p2
      have := hll.eq hq hq' hqi.symm p1 p2
      subst this
      obtain ⟨rfl, rfl⟩ := ih q.input [] hq hf' (by rw [e1, e2, he.1, he.2]) hc.children hc'.children
      exact ⟨rfl, rfl⟩
  · intro A before w' post post' ns' _ h' _ _ _
    cases h'
    exact ⟨rfl, rfl⟩
  · intro x xs w1 w2 n ns h1 h2 ih1 ih2 A before w' post post' ns' hmem h' he hc hc'
    rw [isForest_cons] at h'
    obtain ⟨w1', w2', n', ns1, rfl, rfl, h1', h2'⟩ := h'
    have hx : w1 = w1' ∧ n = n' := by
      by_cases hx : IsNonTerminal ps x
      · exact ih1 (post := w2 ++ post) (post' := w2' ++ post') h1' (by simpa using he)
          (Parser.first_ctx hw hmem hx h2 hc) (Parser.first_ctx hw hmem hx h2' hc')
      · rw [isTree_iff] at h1 h1'
        rcases h1 with ⟨_, hne, l, rfl, rfl⟩ | ⟨rfl, rfl, rfl⟩ | ⟨q, hq, hqi, _⟩
        · rcases h1' with ⟨_, _, l', rfl, rfl⟩ | ⟨hc, _⟩ | ⟨q, hq, hqi, _⟩
          · simp only [List.cons_append, List.nil_append, List.cons.injEq] at he
            rw [he.1]
            exact ⟨rfl, rfl⟩
          · exact absurd hc hne
          · exact absurd ⟨q, hq, hqi⟩ hx
        · rcases h1' with ⟨_, hc, _⟩ | ⟨_, rfl, rfl⟩ | ⟨q, hq, hqi, _⟩
          · exact absurd rfl hc
          · exact ⟨rfl, rfl⟩
          · exact absurd ⟨q, hq, hqi⟩ hx
        · exact absurd ⟨q, hq, hqi⟩ hx
    obtain ⟨rfl, rfl⟩ := hx
    obtain ⟨rfl, rfl⟩ := ih2 A (before ++ [x]) (post := post) (post' := post') (by simpa using hmem) h2'
      (by simpa using he) hc.tail hc'.tail
    exact ⟨rfl, rfl⟩

end Verif.Spec
