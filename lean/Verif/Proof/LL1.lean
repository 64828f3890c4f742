import Verif.Proof.EndMarker
import Verif.Spec.LL1

/-! # Tables without conflicts: every parse tree is found -/

set_option linter.unusedSectionVars false

namespace Verif.Parser

open Spec

variable {σ L T : Type} [DecidableEq T] {eps init e : T} {ps : List (Production T)}
  {p : Parser σ L T} {tokens : List (Token L T)}

theorem IsForest.derives (hw : WellFormed eps ps) {xs : List T} (hn : eps ∉ xs)
    {w : List (Token L T)} {ns : List (Node L T)} (h : IsForest eps ps xs w ns) :
    Derives eps ps xs (w.map (·.tType)) := by
  induction xs generalizing w ns with
  | nil => cases h; exact .refl _
  | cons x xs ih =>
    simp only [List.mem_cons, not_or] at hn
    cases h with
    | cons _ _ w1 w2 n ns h1 h2 =>
      rw [List.map_append]
      exact Derives.append (a := [x]) (h1.derives hw (Ne.symm hn.1)) (ih hn.2 h2)

theorem IsForest.leaves (hw : WellFormed eps ps) {xs : List T}
    {w : List (Token L T)} {ns : List (Node L T)} (h : IsForest eps ps xs w ns) :
    leavesList eps ns = w := by
  induction xs generalizing w ns with
  | nil => cases h; rfl
  | cons x xs ih =>
    cases h with
    | cons _ _ w1 w2 n ns h1 h2 => simp [leavesList, isTree_leaves hw h1, ih h2]

/-- The tokens of a tree are terminals. -/
theorem IsTree.terminals {x : T} {w : List (Token L T)} {n : Node L T} (h : IsTree eps ps x w n)
    (hx : IsNonTerminal ps x ∨ ∃ q ∈ ps, x ∈ q.output) :
    ∀ t ∈ w, IsTerminal ps t.tType ∧ t.tType ≠ eps := by
  revert hx
  refine IsTree.rec (eps := eps) (ps := ps)
    (motive_1 := fun x w n _ => (IsNonTerminal ps x ∨ ∃ q ∈ ps, x ∈ q.output) →
      ∀ t ∈ w, IsTerminal ps t.tType ∧ t.tType ≠ eps)
    (motive_2 := fun xs w ns _ => (∀ x ∈ xs, ∃ q ∈ ps, x ∈ q.output) →
      ∀ t ∈ w, IsTerminal ps t.tType ∧ t.tType ≠ eps) ?_ ?_ ?_ ?_ ?_ h
  · intro t hnt hne hx u hu
    simp only [List.mem_singleton] at hu
    subst hu
    exact ⟨⟨hx.resolve_left hnt, hnt⟩, hne⟩
  · intro _ t ht; simp at ht
  · intro q w ns hq _ ih _
    exact ih fun x hx => ⟨q, hq, hx⟩
  · intro _ t ht; simp at ht
  · intro x xs w w' n ns _ _ ih1 ih2 hxs t ht
    rcases List.mem_append.1 ht with ht | ht
    · exact ih1 (.inr (hxs x (by simp))) t ht
    · exact ih2 (fun y hy => hxs y (by simp [hy])) t ht

theorem IsForest.terminals {xs : List T} {w : List (Token L T)} {ns : List (Node L T)}
    (h : IsForest eps ps xs w ns) (hx : ∀ x ∈ xs, ∃ q ∈ ps, x ∈ q.output) :
    ∀ t ∈ w, IsTerminal ps t.tType ∧ t.tType ≠ eps := by
  induction xs generalizing w ns with
  | nil => cases h; simp
  | cons x xs ih =>
    cases h with
    | cons _ _ w1 w2 n ns h1 h2 =>
      intro t ht
      rcases List.mem_append.1 ht with ht | ht
      · exact IsTree.terminals h1 (.inr (hx x (by simp))) t ht
      · exact ih h2 (fun y hy => hx y (by simp [hy])) t ht

theorem getElem?_mid {pre w post : List (Token L T)} {t : Token L T} {r : List (Token L T)}
    (h : w ++ post = t :: r) : (pre ++ w ++ post)[pre.length]? = some t := by
  rw [List.append_assoc, h]
  simp

/-- The table has every entry of Algorithm 4.31. -/
def Covers (eps : T) (ps : List (Production T)) (p : Parser σ L T) : Prop :=
  ∀ q ∈ ps, ∀ a, Predicts eps ps q a → q.output ∈ p.getTokenProductions q.input a

theorem TableParser.covers (P : TableParser eps init ps p)
    (hfc : ∀ x a, IsNonTerminal ps x → CanFollow eps ps x a → FollowRule eps ps x a) :
    Covers eps ps p := by
  rintro q hq a ⟨h1, h2, ⟨v, hd⟩ | ⟨hd, hc⟩⟩
  · exact (P.cell _ _ _).2 ⟨hq, Props.lead_of_first hq (strFirst_of_derives h1 h2 hd)⟩
  · exact (P.cell _ _ _).2 ⟨hq,
      Props.lead_of_nullable hq (derives_nil_iff.1 hd) (hfc _ _ ⟨q, hq, rfl⟩ hc)⟩

/-- The production at the root of a tree over `w`, followed by `post`, is predicted. -/
theorem predicts_of_tree (hw : WellFormed eps ps)
    {q : Production T} (hq : q ∈ ps) {w : List (Token L T)} {ns : List (Node L T)}
    (hf : IsForest eps ps q.output w ns) {post : List (Token L T)}
    (hctx : (∃ t post', post = t :: post' ∧ CanFollow eps ps q.input t.tType) ∨
      ¬ EndsEmpty eps ps (.mk ns ⟨none, q.input⟩)) :
    ∃ t r, w ++ post = t :: r ∧ Predicts eps ps q t.tType := by
  have htree : IsTree eps ps q.input w (.mk ns ⟨none, q.input⟩) := .node q w ns hq hf
  have hd : Derives eps ps (rhs eps q) (w.map (·.tType)) := by
    unfold rhs
    split
    · rename_i ho
      rw [ho] at hf
      cases hf with
      | cons _ _ w1 w2 n ns h1 h2 =>
        cases h2
        rcases isTree_derives hw h1 with ⟨_, rfl⟩ | ⟨h', _⟩
        · exact .refl _
        · exact absurd rfl h'
    · rename_i ho
      refine IsForest.derives hw ?_ hf
      intro hm
      have := (hw q hq).2.2 hm
      obtain ⟨y, hy⟩ := List.length_eq_one_iff.1 this
      rw [hy] at hm ho
      simp at hm
      simp [hm] at ho
  cases w with
  | cons t w' =>
    have ht := IsTree.terminals htree (.inl ⟨q, hq, rfl⟩) t (by simp)
    exact ⟨t, w' ++ post, rfl, ht.1, ht.2, .inl ⟨_, hd⟩⟩
  | nil =>
    rcases hctx with ⟨t, post', rfl, hc⟩ | hc
    · exact ⟨t, post', rfl, hc.1, hc.2.1, .inr ⟨hd, hc⟩⟩
    · exact absurd (.here _ ⟨q, hq, rfl⟩ (isTree_leaves hw htree)) hc

/-- The production at the root of a tree over `w`, followed by `post`, is a candidate. -/
theorem cand_of_tree (P : ParserOf eps init ps p)
    (hpc : Covers eps ps p)
    {q : Production T} (hq : q ∈ ps) {w : List (Token L T)} {ns : List (Node L T)}
    (hf : IsForest eps ps q.output w ns) {post : List (Token L T)}
    (hctx : (∃ t post', post = t :: post' ∧ CanFollow eps ps q.input t.tType) ∨
      ¬ EndsEmpty eps ps (.mk ns ⟨none, q.input⟩)) :
    ∃ t r, w ++ post = t :: r ∧ q.output ∈ p.getTokenProductions q.input t.tType := by
  obtain ⟨t, r, h1, h2⟩ := predicts_of_tree P.grammar.wf hq hf hctx
  exact ⟨t, r, h1, hpc q hq _ h2⟩

/-- The context of the first symbol of a sequence inside a production. -/
theorem first_ctx (hw : WellFormed eps ps) {A x : T} {before xs : List T}
    (hmem : (⟨A, before ++ x :: xs⟩ : Production T) ∈ ps) (hx : IsNonTerminal ps x)
    {w2 post : List (Token L T)} {n : Node L T} {ns : List (Node L T)} (h2 : IsForest eps ps xs w2 ns)
    (hctx : (∃ t post', post = t :: post' ∧ CanFollow eps ps A t.tType) ∨
      ¬ ∃ a c b, n :: ns = a ++ c :: b ∧ leavesList eps b = [] ∧ EndsEmpty eps ps c) :
    (∃ t post', w2 ++ post = t :: post' ∧ CanFollow eps ps x t.tType) ∨ ¬ EndsEmpty eps ps n := by
  have hne : eps ∉ before ++ x :: xs := by
    intro hm
    have := (hw _ hmem).2.2 hm
    have hb : before = [] ∧ xs = [] := by
      simp only [List.length_append, List.length_cons] at this
      exact ⟨List.length_eq_zero_iff.1 (by omega), List.length_eq_zero_iff.1 (by omega)⟩
    obtain ⟨rfl, rfl⟩ := hb
    simp only [List.nil_append, List.mem_singleton] at hm
    obtain ⟨q, hq, hqe⟩ := hx
    exact (hw q hq).1 (hqe.trans hm.symm)
  have hrhs : rhs eps (⟨A, before ++ x :: xs⟩ : Production T) = before ++ x :: xs := by
    unfold rhs
    rw [if_neg]
    intro he
    apply hne
    simp only at he
    rw [he]; simp
  have hprod := Derives.of_production (eps := eps) hmem
  rw [hrhs] at hprod
  simp only at hprod
  have hdrest := IsForest.derives hw (xs := xs) (fun h' => hne (by simp [h'])) h2
  have hstep : Derives eps ps [A] (before ++ x :: w2.map (·.tType)) := by
    refine hprod.trans ?_
    have := hdrest.context (before ++ [x]) []
    simpa using this
  cases hw2 : w2 with
  | cons t w2' =>
    subst hw2
    have ht := IsForest.terminals h2 (fun y hy => ⟨_, hmem, by simp [hy]⟩) t (by simp)
    refine .inl ⟨t, w2' ++ post, rfl, ht.1, ht.2, A, before, _, ⟨_, hmem, rfl⟩, hstep⟩
  | nil =>
    subst hw2
    rcases hctx with ⟨t, post', rfl, h3, h4, N, u, v, hN, hd⟩ | hctx
    · refine .inl ⟨t, post', rfl, h3, h4, N, u ++ before, v, hN, hd.trans ?_⟩
      have := hstep.context u (t.tType :: v)
      simpa using this
    · refine .inr fun hc => hctx ⟨[], n, ns, rfl, IsForest.leaves hw h2, hc⟩

theorem choice_of_tree (P : ParserOf eps init ps p)
    (hpc : Covers eps ps p)
    (hcf : ∀ x a, (p.getTokenProductions x a).length ≤ 1)
    {x : T} {w : List (Token L T)} {n : Node L T} (h : IsTree eps ps x w n) (hx : IsNonTerminal ps x)
    {pre post : List (Token L T)} (htok : tokens = pre ++ w ++ post)
    (hctx : (∃ t post', post = t :: post' ∧ CanFollow eps ps x t.tType) ∨ ¬ EndsEmpty eps ps n) :
    ∃ t, tokens[pre.length]? = some t ∧
      Choice eps ps p.getTokenProductions tokens x pre.length (p.getTokenProductions x t.tType)
        (.found (n, pre.length + w.length, [])) := by
  have hw := P.grammar.wf
  revert hx pre post
  refine IsTree.rec (eps := eps) (ps := ps)
    (motive_1 := fun x w n _ => IsNonTerminal ps x → ∀ {pre post : List (Token L T)},
      tokens = pre ++ w ++ post →
      ((∃ t post', post = t :: post' ∧ CanFollow eps ps x t.tType) ∨ ¬ EndsEmpty eps ps n) →
      ∃ t, tokens[pre.length]? = some t ∧
        Choice eps ps p.getTokenProductions tokens x pre.length (p.getTokenProductions x t.tType)
          (.found (n, pre.length + w.length, [])))
    (motive_2 := fun xs w ns hfor => ∀ (A : T) (before : List T) {pre post : List (Token L T)},
      (⟨A, before ++ xs⟩ : Production T) ∈ ps → tokens = pre ++ w ++ post →
      ((∃ t post', post = t :: post' ∧ CanFollow eps ps A t.tType) ∨
        ¬ ∃ a c b, ns = a ++ c :: b ∧ leavesList eps b = [] ∧ EndsEmpty eps ps c) →
      Seq eps ps p.getTokenProductions tokens xs pre.length (.found (ns, pre.length + w.length)))
    ?_ ?_ ?_ ?_ ?_ h
  · intro t hnt _ hx
    exact absurd hx hnt
  · rintro ⟨q, hq, hqe⟩
    exact absurd hqe (hw q hq).1
  · intro q w ns hq hf ih hx pre post htok hctx
    obtain ⟨t, r, h1, h2⟩ := cand_of_tree P hpc hq hf hctx
    have ht : tokens[pre.length]? = some t := by rw [htok]; exact getElem?_mid h1
    refine ⟨t, ht, ?_⟩
    have hc : p.getTokenProductions q.input t.tType = [q.output] := by
      have := hcf q.input t.tType
      match hl : p.getTokenProductions q.input t.tType, h2, this with
      | [o], h2, _ => simp at h2; rw [h2]
    rw [hc]
    refine .here _ _ _ _ _ _ (ih q.input [] hq htok ?_)
    rcases hctx with hctx | hctx
    · exact .inl hctx
    · refine .inr ?_
      rintro ⟨a, c, b, rfl, hb, hc⟩
      exact hctx (.last a c b _ hb hc)
  · intro A before pre post _ _ _
    exact .nil _
  · intro x xs w1 w2 n ns h1 h2 ih1 ih2 A before pre post hmem htok hctx
    have hrest : Seq eps ps p.getTokenProductions tokens xs (pre ++ w1).length
        (.found (ns, (pre ++ w1).length + w2.length)) := by
      refine ih2 A (before ++ [x]) (post := post) (by simpa using hmem) (by simp [htok]) ?_
      rcases hctx with hctx | hctx
      · exact .inl hctx
      · refine .inr ?_
        rintro ⟨a, c, b, rfl, hb, hc⟩
        exact hctx ⟨n :: a, c, b, rfl, hb, hc⟩
    by_cases hx : IsNonTerminal ps x
    · have hctx' := first_ctx hw hmem hx h2 hctx
      obtain ⟨t, ht, hc⟩ := ih1 hx (pre := pre) (post := w2 ++ post) (by simp [htok]) hctx'
      refine .nonTerminal _ _ _ t _ hx ht (.found _ _ _ _ _ _ _ _ _ hc ?_)
      simpa [Nat.add_assoc] using hrest
    · -- a terminal or eps
      cases h1 with
      | leaf t hnt hte =>
        have ht : tokens[pre.length]? = some t := by
          rw [htok]; simp
        have := Seq.terminal xs pre.length t _ hnt hte ht (by simpa using hrest)
        simpa [Search.cons, Nat.add_assoc, Nat.add_comm, Nat.add_left_comm] using this
      | eps =>
        have := Seq.eps xs pre.length _ (by simpa using hrest)
        simpa [Search.cons] using this
      | node q w ns' hq hf => exact absurd ⟨q, hq, rfl⟩ hx

/-- A tree over a prefix of the input is found. -/
theorem parses_of_tree (P : ParserOf eps init ps p) (hp : p.syntaxErrorSolver = none)
    (hpc : Covers eps ps p)
    (hcf : ∀ x a, (p.getTokenProductions x a).length ≤ 1) (hnt : IsNonTerminal ps init)
    {w post : List (Token L T)} {n : Node L T} (h : IsTree eps ps init w n)
    (hctx : (∃ t post', post = t :: post' ∧ CanFollow eps ps init t.tType) ∨ ¬ EndsEmpty eps ps n)
    (s : σ) : Parses p (w ++ post) s (.ok ⟨n⟩) s := by
  obtain ⟨t, ht, hc⟩ := choice_of_tree (tokens := w ++ post) (pre := []) P hpc hcf h hnt rfl hctx
  cases hwp : w ++ post with
  | nil => rw [hwp] at ht; simp at ht
  | cons t' ts =>
    rw [hwp] at ht hc
    simp only [List.length_nil, List.getElem?_cons_zero, Option.some.injEq] at ht hc
    subst ht
    exact ((parse_iff_choice P hp t' ts s).1 ⟨n⟩ s).2 ⟨rfl, _, _, hc⟩

/-- Two trees over the same tokens in the same context are equal. -/
theorem tree_unique (P : ParserOf eps init ps p) (hp : p.syntaxErrorSolver = none) (s : σ)
    (hpc : Covers eps ps p)
    (hcf : ∀ x a, (p.getTokenProductions x a).length ≤ 1) {x : T} {w post : List (Token L T)}
    {n n' : Node L T} (h : IsTree eps ps x w n) (h' : IsTree eps ps x w n')
    (hctx : (∃ t post', post = t :: post' ∧ CanFollow eps ps x t.tType) ∨ ¬ EndsEmpty eps ps n)
    (hctx' : (∃ t post', post = t :: post' ∧ CanFollow eps ps x t.tType) ∨ ¬ EndsEmpty eps ps n') :
    n = n' := by
  by_cases hnt : IsNonTerminal ps x
  · obtain ⟨t, ht, hc⟩ := choice_of_tree (tokens := w ++ post) (pre := []) P hpc hcf h hnt rfl hctx
    obtain ⟨t', ht', hc'⟩ := choice_of_tree (tokens := w ++ post) (pre := []) P hpc hcf h' hnt rfl hctx'
    rw [ht] at ht'
    cases ht'
    have := choice_det P hp s hc hc'
    simp only [Search.found.injEq, Prod.mk.injEq] at this
    exact this.1
  · cases h with
    | leaf t =>
      generalize hx : t.tType = x at h'
      generalize hw : [t] = w at h'
      cases h' with
      | leaf t' => simp at hw; rw [hw]
      | eps => simp at hw
      | node q _ _ hq => exact absurd ⟨q, hq, hx.symm⟩ hnt
    | eps =>
      generalize hx : eps = x at h'
      generalize hw : ([] : List (Token L T)) = w at h'
      cases h' with
      | leaf t' => simp at hw
      | eps => rfl
      | node q _ _ hq => exact absurd ⟨q, hq, hx.symm⟩ hnt
    | node q _ _ hq => exact absurd ⟨q, hq, rfl⟩ hnt

theorem forest_split {xs ys : List T} {w : List (Token L T)} {ns : List (Node L T)}
    (h : IsForest eps ps (xs ++ ys) w ns) : ∃ w1 w2 n1 n2, w = w1 ++ w2 ∧
      IsForest eps ps xs w1 n1 ∧ IsForest eps ps ys w2 n2 := by
  induction xs generalizing w ns with
  | nil => exact ⟨[], w, [], ns, rfl, .nil, h⟩
  | cons x xs ih =>
    cases h with
    | cons _ _ w1 w2 n ns h1 h2 =>
      obtain ⟨v1, v2, n1, n2, rfl, h3, h4⟩ := ih h2
      exact ⟨w1 ++ v1, v2, _, _, by simp, .cons _ _ _ _ _ _ h1 h3, h4⟩

/-- Every derivation of terminals has a parse tree. -/
theorem forest_of_derives {a b : List T} (h : Derives eps ps a b) (w : List (Token L T))
    (hw : w.map (·.tType) = b) (hterm : ∀ t ∈ w, ¬ IsNonTerminal ps t.tType ∧ t.tType ≠ eps) :
    ∃ ns, IsForest eps ps a w ns := by
  induction h with
  | refl a =>
    subst hw
    induction w with
    | nil => exact ⟨[], .nil⟩
    | cons t w ih =>
      obtain ⟨ns, hns⟩ := ih fun t ht => hterm t (by simp [ht])
      exact ⟨_, .cons _ _ [t] w _ _ (.leaf t (hterm t (by simp)).1 (hterm t (by simp)).2) hns⟩
  | step s _ ih =>
    obtain ⟨ns, hns⟩ := ih hw
    cases s with
    | mk u v q hq =>
      obtain ⟨w1, w2, n1, n2, rfl, h1, h2⟩ := forest_split hns
      obtain ⟨w3, w4, n3, n4, rfl, h3, h4⟩ := forest_split h1
      have hroot : ∃ ms, IsForest eps ps q.output w4 ms := by
        unfold rhs at h4
        split at h4
        · rename_i ho
          cases h4
          rw [ho]
          exact ⟨_, IsForest.single .eps⟩
        · exact ⟨_, h4⟩
      obtain ⟨ms, hms⟩ := hroot
      have := h3.append (.cons _ _ _ _ _ _ (.node q _ _ hq hms) h2)
      exact ⟨_, by simpa using this⟩

theorem tree_of_sentence {w : List (Token L T)} (h : Sentence eps init ps (w.map (·.tType))) :
    ∃ n, IsTree eps ps init w n := by
  obtain ⟨ns, hns⟩ := forest_of_derives h.1 w rfl fun t ht =>
    ⟨(h.2 t.tType (List.mem_map_of_mem ht)).1.2, (h.2 t.tType (List.mem_map_of_mem ht)).2⟩
  cases hns with
  | cons _ _ w1 w2 n ns h1 h2 =>
    cases h2
    exact ⟨n, by simpa using h1⟩

/-- A forest whose last symbol is a terminal does not end with an empty non-terminal. -/
theorem forest_not_endsEmpty (hw : WellFormed eps ps) (hne : e ≠ eps) (he : ¬ IsNonTerminal ps e)
    {u : List T} {w : List (Token L T)} {ns : List (Node L T)}
    (hf : IsForest eps ps (u ++ [e]) w ns) :
    w ≠ [] ∧ ¬ ∃ a c b, ns = a ++ c :: b ∧ leavesList eps b = [] ∧ EndsEmpty eps ps c := by
  induction u generalizing w ns with
  | nil =>
    cases hf with
    | cons _ _ w1 w2 n ns h1 h2 =>
      cases h2
      generalize hy : e = y at h1
      cases h1 with
      | eps => exact absurd hy hne
      | node q' _ _ hq' => exact absurd ⟨q', hq', hy.symm⟩ he
      | leaf t =>
        refine ⟨by simp, ?_⟩
        rintro ⟨a, c, b, hab, _, hc⟩
        cases a with
        | cons a1 a => simp at hab
        | nil =>
          simp only [List.nil_append, List.cons.injEq] at hab
          obtain ⟨rfl, rfl⟩ := hab
          generalize hn : Node.mk [] t = nd at hc
          cases hc with
          | here _ h3 => rw [← hn] at h3; exact he (hy ▸ h3)
          | last a c b t' => simp at hn
  | cons y u ih =>
    cases hf with
    | cons _ _ w1 w2 n ns h1 h2 =>
      obtain ⟨i1, i2⟩ := ih h2
      refine ⟨by simp [i1], ?_⟩
      rintro ⟨a, c, b, hab, hb, hc⟩
      cases a with
      | nil =>
        simp only [List.nil_append, List.cons.injEq] at hab
        obtain ⟨rfl, rfl⟩ := hab
        rw [IsForest.leaves hw h2] at hb
        exact i1 hb
      | cons a1 a =>
        simp only [List.cons_append, List.cons.injEq] at hab
        exact i2 ⟨a, c, b, hab.2, hb, hc⟩

/-- The trees of end-marked grammars do not end with an empty non-terminal. -/
theorem not_endsEmpty_of_endMarked (hw : WellFormed eps ps) (hem : EndMarked eps init e ps)
    (hnt : IsNonTerminal ps init) {w : List (Token L T)} {n : Node L T}
    (h : IsTree eps ps init w n) : ¬ EndsEmpty eps ps n := by
  have hl := isTree_leaves hw h
  generalize hx : init = x at h
  cases h with
  | leaf t h1 => rw [← hx] at h1; exact absurd hnt h1
  | eps =>
    obtain ⟨q, hq, hqi⟩ := hnt
    exact absurd (hqi.trans hx) (hw q hq).1
  | node q w ns hq hf =>
    obtain ⟨u, hu, _⟩ := hem.initial_ends q hq hx.symm
    rw [hu] at hf
    obtain ⟨i1, i2⟩ := forest_not_endsEmpty hw hem.ne_eps hem.terminal hf
    intro hee
    generalize hn : Node.mk ns ⟨none, q.input⟩ = nd at hee
    cases hee with
    | here _ _ h4 => rw [← hn, hl] at h4; exact i1 h4
    | last a c b t hb hc =>
      simp only [Node.mk.injEq] at hn
      exact i2 ⟨a, c, b, hn.1, hb, hc⟩

end Verif.Parser
