import Verif.Proof.LL1Unique
import Verif.Proof.Reduced
import Verif.Spec.Predicted

/-! # The predictions made inside of a tree -/

set_option linter.unusedSectionVars false

namespace Verif.Spec

variable {L T : Type} [DecidableEq T] {eps init : T} {ps : List (Production T)}
  {cand : T → T → List (List T)} {tokens : List (Token L T)}

theorem Predicted.label {x : T} {i j : Nat} {n : Node L T} (h : Predicted eps ps cand tokens x i n j) :
    n.token.tType = x := by
  cases h <;> rfl

theorem PredictedSeq.labels {xs : List T} {i j : Nat} {ns : List (Node L T)}
    (h : PredictedSeq eps ps cand tokens xs i ns j) : ns.map (·.token.tType) = xs := by
  induction xs generalizing i ns with
  | nil => cases h; rfl
  | cons x xs ih =>
    cases h with
    | cons _ _ _ k _ n ns h1 h2 => simp [h1.label, ih h2]

theorem IsForest.labels {xs : List T} {w : List (Token L T)} {ns : List (Node L T)}
    (h : IsForest eps ps xs w ns) : ns.map (·.token.tType) = xs := by
  induction xs generalizing w ns with
  | nil => cases h; rfl
  | cons x xs ih =>
    cases h with
    | cons _ _ _ _ n ns h1 h2 => simp [h1.label, ih h2]

theorem PredictedSeq.append {xs ys : List T} {i j k : Nat} {ns ms : List (Node L T)}
    (h : PredictedSeq eps ps cand tokens xs i ns j) (h' : PredictedSeq eps ps cand tokens ys j ms k) :
    PredictedSeq eps ps cand tokens (xs ++ ys) i (ns ++ ms) k := by
  induction xs generalizing i ns with
  | nil => cases h; simpa using h'
  | cons x xs ih =>
    cases h with
    | cons _ _ _ k' _ n ns h1 h2 => exact .cons _ _ _ _ _ _ _ h1 (ih h2)

theorem PredictedSeq.split {xs ys : List T} {i k : Nat} {ns ms : List (Node L T)}
    (h : PredictedSeq eps ps cand tokens (xs ++ ys) i (ns ++ ms) k) (hl : ns.length = xs.length) :
    ∃ j, PredictedSeq eps ps cand tokens xs i ns j ∧ PredictedSeq eps ps cand tokens ys j ms k := by
  induction xs generalizing i ns with
  | nil =>
    have : ns = [] := List.length_eq_zero_iff.1 hl
    subst this
    exact ⟨i, .nil i, h⟩
  | cons x xs ih =>
    cases ns with
    | nil => simp at hl
    | cons n ns =>
      cases h with
      | cons _ _ _ k' _ _ _ h1 h2 =>
        obtain ⟨j, h3, h4⟩ := ih h2 (by simpa using hl)
        exact ⟨j, .cons _ _ _ _ _ _ _ h1 h3, h4⟩

theorem IsForest.split {xs ys : List T} {w : List (Token L T)} {ns : List (Node L T)}
    (h : IsForest eps ps (xs ++ ys) w ns) : ∃ w1 w2 n1 n2, w = w1 ++ w2 ∧ ns = n1 ++ n2 ∧
      IsForest eps ps xs w1 n1 ∧ IsForest eps ps ys w2 n2 := by
  induction xs generalizing w ns with
  | nil => exact ⟨[], w, [], ns, rfl, rfl, .nil, h⟩
  | cons x xs ih =>
    cases h with
    | cons _ _ w1 w2 n ns h1 h2 =>
      obtain ⟨v1, v2, n1, n2, rfl, rfl, h3, h4⟩ := ih h2
      exact ⟨w1 ++ v1, v2, _, _, by simp, rfl, .cons _ _ _ _ _ _ h1 h3, h4⟩

theorem IsForest.length {xs : List T} {w : List (Token L T)} {ns : List (Node L T)}
    (h : IsForest eps ps xs w ns) : ns.length = xs.length := by
  rw [← h.labels]; simp

/-- Predicted trees cover as many tokens as they have leaves. -/
theorem PredictedSeq.position (hw : WellFormed eps ps)
    (hcand : ∀ x a o, o ∈ cand x a → (⟨x, o⟩ : Production T) ∈ ps) {xs : List T} {i j : Nat}
    {ns : List (Node L T)} (h : PredictedSeq eps ps cand tokens xs i ns j) :
    j = i + (leavesList eps ns).length := by
  refine PredictedSeq.rec (eps := eps) (ps := ps) (cand := cand) (tokens := tokens)
    (motive_1 := fun x i n j _ => j = i + (leaves eps n).length)
    (motive_2 := fun xs i ns j _ => j = i + (leavesList eps ns).length) ?_ ?_ ?_ ?_ ?_ h
  · intro t i _ h2 _
    simp [leaves, h2]
  · intro i
    simp [leaves]
  · intro x i t out ns j _ _ ho hs ih
    have hne : out ≠ [] := (hw _ (hcand _ _ _ ho)).2.1
    cases ns with
    | nil => exact absurd (hs.labels).symm (by simpa using hne)
    | cons n ns => simpa [leaves, leavesList] using ih
  · intro i
    simp [leavesList]
  · intro x xs i j k n ns _ _ ih1 ih2
    simp only [leavesList, List.length_append]
    omega

/-- The children of an expanded non-terminal. -/
theorem Predicted.children (hw : WellFormed eps ps) {p : Production T} (hp : p ∈ ps) {i j : Nat}
    {ns : List (Node L T)} (hl : ns.map (·.token.tType) = p.output)
    (h : Predicted eps ps cand tokens p.input i (.mk ns ⟨none, p.input⟩) j) :
    (∃ t, tokens[i]? = some t ∧ p.output ∈ cand p.input t.tType) ∧
      PredictedSeq eps ps cand tokens p.output i ns j := by
  generalize hx : p.input = x at h
  generalize hn : Node.mk ns ⟨none, x⟩ = n at h
  cases h with
  | leaf t _ h1 =>
    simp only [Node.mk.injEq] at hn
    exact absurd ⟨p, hp, hx⟩ h1
  | eps => exact absurd hx (hw p hp).1
  | node _ _ t out ns' _ _ ht ho hs =>
    simp only [Node.mk.injEq, and_true] at hn
    subst hn
    have := hs.labels
    rw [hl] at this
    subst this
    exact ⟨⟨t, ht, ho⟩, hs⟩

/-- A form with a symbol `A` in it is completed to a forest over words for its parts; a predicted forest
makes a prediction for `A`. -/
theorem forest_at (hw : WellFormed eps ps)
    (hcand : ∀ x a o, o ∈ cand x a → (⟨x, o⟩ : Production T) ∈ ps) {A : T} {wA : List (Token L T)}
    {m : Node L T} (hm : IsTree eps ps A wA m) {l u v : List T} (h : Derives eps ps l (u ++ A :: v))
    {wu wv : List (Token L T)} {nu nv : List (Node L T)} (hu : IsForest eps ps u wu nu)
    (hv : IsForest eps ps v wv nv) :
    ∃ ns, IsForest eps ps l (wu ++ wA ++ wv) ns ∧ ∀ (tokens : List (Token L T)) (i j : Nat),
      PredictedSeq eps ps cand tokens l i ns j → ∃ k, Predicted eps ps cand tokens A (i + wu.length) m k := by
  generalize he : u ++ A :: v = b at h
  induction h with
  | refl a =>
    subst he
    refine ⟨nu ++ m :: nv, ?_, ?_⟩
    · have := hu.append (.cons _ _ _ _ _ _ hm hv)
      simpa using this
    · intro tokens i j hp
      obtain ⟨k, h1, h2⟩ := hp.split hu.length
      cases h2 with
      | cons _ _ _ k' _ _ _ h3 h4 =>
        have := h1.position hw hcand
        rw [Parser.IsForest.leaves hw hu] at this
        subst this
        exact ⟨_, h3⟩
  | step s _ ih =>
    obtain ⟨ns, hns, hat⟩ := ih he
    cases s with
    | mk u' v' p hp =>
      obtain ⟨w1, w2, n1, n2, ew, rfl, h1, h2⟩ := hns.split
      obtain ⟨w3, w4, n3, n4, rfl, rfl, h3, h4⟩ := h1.split
      rw [ew]
      by_cases ho : p.output = [eps]
      · have hr : rhs eps p = [] := by simp [rhs, ho]
        rw [hr] at h4
        cases h4
        have htree : IsTree (L := L) eps ps p.input [] (.mk [.mk [] ⟨none, eps⟩] ⟨none, p.input⟩) :=
          .node p [] _ hp (by rw [ho]; exact IsForest.single (L := L) .eps)
        refine ⟨_, by simpa using h3.append (.cons _ _ _ _ _ _ htree h2), ?_⟩
        intro tokens i j hpr
        refine hat tokens i j ?_
        obtain ⟨k, e1, e2⟩ := hpr.split h3.length
        cases e2 with
        | cons _ _ _ k' _ _ _ e3 e4 =>
          have e5 := (e3.children hw hp (by simp [ho, Node.token])).2
          have e6 := e5.position hw hcand
          simp [leavesList, leaves] at e6
          subst e6
          simpa [hr] using e1.append e4
      · have hr : rhs eps p = p.output := by simp [rhs, ho]
        rw [hr] at h4
        have htree : IsTree eps ps p.input w4 (.mk n4 ⟨none, p.input⟩) := .node p _ _ hp h4
        refine ⟨_, by simpa using h3.append (.cons _ _ _ _ _ _ htree h2), ?_⟩
        intro tokens i j hpr
        refine hat tokens i j ?_
        obtain ⟨k, e1, e2⟩ := hpr.split h3.length
        cases e2 with
        | cons _ _ _ k' _ _ _ e3 e4 =>
          have e5 := (e3.children hw hp h4.labels).2
          rw [hr]
          exact (e1.append e5).append e4

/-- The word of a form of terminals and productive non-terminals. -/
theorem forest_of_form (hred : ∀ x, IsNonTerminal ps x → Productive eps ps x) {l : List T}
    (hl : ∀ x ∈ l, ¬ IsNonTerminal ps x → IsTerminal ps x ∧ x ≠ eps) :
    ∃ (w : List (Token L T)) (ns : List (Node L T)), IsForest eps ps l w ns := by
  obtain ⟨w, h1, h2⟩ := derives_terminals hred hl
  obtain ⟨ns, hns⟩ := Parser.forest_of_derives (L := L) h1 (w.map fun a => ⟨none, a⟩)
    (by simp [Function.comp_def]) (by
      intro t ht
      obtain ⟨a, ha, rfl⟩ := List.mem_map.1 ht
      exact ⟨(h2 a ha).1.2, (h2 a ha).2⟩)
  exact ⟨_, ns, hns⟩

/-- For every production and terminal that predicts it, there is a parse tree of a sentence that needs the
prediction. -/
theorem exists_predicting (hw : WellFormed eps ps) (hred : Reduced eps init ps)
    (hcand : ∀ x a o, o ∈ cand x a → (⟨x, o⟩ : Production T) ∈ ps) {q : Production T} (hq : q ∈ ps) {a : T}
    (h : Predicts eps ps q a) : ∃ (w : List (Token L T)) (n : Node L T), IsTree eps ps init w n ∧
      ∀ j, Predicted eps ps cand w init 0 n j → q.output ∈ cand q.input a := by
  obtain ⟨ha, hne, h⟩ := h
  have hprod : ∀ x, IsNonTerminal ps x → Productive eps ps x := fun x hx => (hred x hx).2
  -- symbols of forms derived from the initial symbol
  have hsym : ∀ N, IsNonTerminal ps N → ∀ {l : List T}, Derives eps ps [N] l →
      ∀ x ∈ l, ¬ IsNonTerminal ps x → IsTerminal ps x ∧ x ≠ eps := by
    intro N hN l hl x hx hnt
    rcases hl.symbols hw x hx with h5 | ⟨h5, r, hr, hy⟩
    · simp only [List.mem_singleton] at h5
      exact absurd (h5 ▸ hN) hnt
    · exact ⟨⟨⟨r, hr, hy⟩, hnt⟩, h5⟩
  have hinit : IsNonTerminal ps init := by
    by_contra hc
    obtain ⟨u, v, hd⟩ := (hred q.input ⟨q, hq, rfl⟩).1
    have := Derives.terminal_eq hc hd
    cases u with
    | nil =>
      simp only [List.nil_append, List.cons.injEq] at this
      exact hc ⟨q, hq, this.1⟩
    | cons y u => cases u <;> simp at this
  -- a tree for the production and a forest for what stands behind it, over a word that begins with `a`
  have key : ∃ (u v : List T) (wA wv : List (Token L T)) (ns nv : List (Node L T)) (t : Token L T)
      (r : List (Token L T)), Derives eps ps [init] (u ++ q.input :: v) ∧
      IsForest eps ps q.output wA ns ∧ IsForest eps ps v wv nv ∧ wA ++ wv = t :: r ∧ t.tType = a := by
    rcases h with ⟨z, hd⟩ | ⟨hd, _, _, N, u, v, hN, hdN⟩
    · have hr : rhs eps q = q.output := by
        unfold rhs
        split
        · rename_i ho
          unfold rhs at hd
          rw [if_pos ho] at hd
          exact absurd hd.nil_eq (by simp)
        · rfl
      rw [hr] at hd
      have hfull : Derives eps ps [q.input] (a :: z) := by
        refine (Derives.of_production hq).trans ?_
        rw [hr]; exact hd
      obtain ⟨z', hz1, hz2⟩ := derives_terminals (l := z) hprod fun x hx hnt =>
        hsym q.input ⟨q, hq, rfl⟩ hfull x (by simp [hx]) hnt
      obtain ⟨ns, hns⟩ := Parser.forest_of_derives (L := L) (eps := eps) (ps := ps) (a := q.output)
        (b := a :: z') (hd.trans (by simpa using hz1.context [a] []))
        (⟨none, a⟩ :: z'.map fun b => ⟨none, b⟩) (by simp [Function.comp_def]) (by
          intro t ht
          rcases List.mem_cons.1 ht with rfl | ht
          · exact ⟨ha.2, hne⟩
          · obtain ⟨b, hb, rfl⟩ := List.mem_map.1 ht
            exact ⟨(hz2 b hb).1.2, (hz2 b hb).2⟩)
      obtain ⟨u, v, huv⟩ := (hred q.input ⟨q, hq, rfl⟩).1
      obtain ⟨wv, nv, hv⟩ := forest_of_form (L := L) hprod (l := v) fun x hx hnt =>
        hsym init hinit huv x (by simp [hx]) hnt
      exact ⟨u, v, _, wv, ns, nv, _, _, huv, hns, hv, rfl, rfl⟩
    · obtain ⟨u0, v0, h0⟩ := (hred N hN).1
      have hfull : Derives eps ps [init] ((u0 ++ u) ++ q.input :: (a :: (v ++ v0))) := by
        refine h0.trans ?_
        simpa using hdN.context u0 v0
      have hns : ∃ ns, IsForest (L := L) eps ps q.output [] ns := by
        by_cases ho : q.output = [eps]
        · rw [ho]; exact ⟨_, IsForest.single .eps⟩
        · have hr : rhs eps q = q.output := by simp [rhs, ho]
          rw [hr] at hd
          exact Parser.forest_of_derives (L := L) hd [] rfl (by simp)
      obtain ⟨ns, hns⟩ := hns
      obtain ⟨wv, nv, hv⟩ := forest_of_form (L := L) hprod (l := v ++ v0) fun x hx hnt =>
        hsym init hinit hfull x (by simp at hx ⊢; tauto) hnt
      have hleaf : IsTree eps ps a [(⟨none, a⟩ : Token L T)] (.mk [] ⟨none, a⟩) :=
        .leaf ⟨none, a⟩ ha.2 hne
      exact ⟨u0 ++ u, a :: (v ++ v0), [], _, ns, _, _, _, hfull, hns, .cons _ _ _ _ _ _ hleaf hv, rfl, rfl⟩
  obtain ⟨u, v, wA, wv, ns, nv, t, r, hd, hns, hv, he, ht⟩ := key
  obtain ⟨wu, nu, hu⟩ := forest_of_form (L := L) hprod (l := u) fun x hx hnt =>
    hsym init hinit hd x (by simp [hx]) hnt
  obtain ⟨ms, hms, hat⟩ := forest_at hw hcand (.node q wA ns hq hns) hd hu hv
  rw [isForest_cons] at hms
  obtain ⟨w1, w2, n, ms', ew, rfl, h1, h2⟩ := hms
  rw [isForest_nil] at h2
  obtain ⟨rfl, rfl⟩ := h2
  refine ⟨wu ++ wA ++ wv, n, by rw [ew]; simpa using h1, ?_⟩
  intro j hp
  obtain ⟨k, hk⟩ := hat _ 0 j (.cons _ _ _ _ _ _ _ hp (.nil _))
  obtain ⟨⟨t', ht', ho⟩, _⟩ := hk.children hw hq hns.labels
  rw [Nat.zero_add, List.append_assoc, he] at ht'
  simp only [Nat.le_refl, List.getElem?_append_right, Nat.sub_self,
    List.getElem?_cons_zero, Option.some.injEq] at ht'
  subst ht'
  rw [← ht]
  exact ho

end Verif.Spec
