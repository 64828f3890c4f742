import Verif.Proof.Expands
import Verif.Spec.Rewrite

/-!
# Removing immediate left recursion and left factoring keep the language
-/

set_option linter.unusedSectionVars false

namespace Verif

open Spec

variable {T : Type} [DecidableEq T] {eps a b : T} {ps : List (Production T)}

theorem rhs_of_ne {p : Production T} (h : p.output ≠ [eps]) : rhs eps p = p.output := by
  unfold rhs; rw [if_neg h]

theorem rhs_sub {p : Production T} {x : T} (h : x ∈ rhs eps p) : x ∈ p.output := by
  unfold rhs at h
  split at h
  · simp at h
  · exact h

theorem append_ne_eps (hb : b ≠ eps) (l : List T) : l ++ [b] ≠ [eps] := by
  intro h
  have : b ∈ [eps] := by rw [← h]; simp
  exact hb (by simpa using this)

/-! ## Left recursion -/

namespace Unrecurse

theorem mem_iff {q : Production T} : q ∈ unrecurse eps a b ps ↔
    (q ∈ ps ∧ q.input ≠ a) ∨
    (∃ l, l ≠ [] ∧ (⟨a, a :: l⟩ : Production T) ∈ ps ∧ q = ⟨b, l ++ [b]⟩) ∨
    (∃ r ∈ ps, r.input = a ∧ r.output.head? ≠ some a ∧ q = ⟨a, rhs eps r ++ [b]⟩) ∨ q = ⟨b, [eps]⟩ := by
  unfold unrecurse
  rw [List.mem_append, List.mem_flatMap, List.mem_singleton]
  constructor
  · rintro (⟨r, hr, hq⟩ | rfl)
    · unfold unrecurseOne at hq
      split at hq
      · rename_i h1
        split at hq
        · rename_i h2
          split at hq
          · simp at hq
          · rename_i h3
            refine .inr (.inl ⟨r.output.tail, h3, ?_, by simpa using hq⟩)
            obtain ⟨i, o⟩ := r
            cases o with
            | nil => simp at h2
            | cons y o =>
              simp only [List.head?_cons, Option.some.injEq] at h2
              subst h2
              simp only at h1
              subst h1
              exact hr
        · rename_i h2
          exact .inr (.inr (.inl ⟨r, hr, h1, h2, by simpa using hq⟩))
      · rename_i h1
        rw [List.mem_singleton] at hq
        subst hq
        exact .inl ⟨hr, h1⟩
    · exact .inr (.inr (.inr rfl))
  · rintro (⟨h1, h2⟩ | ⟨l, h1, h2, rfl⟩ | ⟨r, h1, h2, h3, rfl⟩ | rfl)
    · exact .inl ⟨q, h1, by simp [unrecurseOne, h2]⟩
    · exact .inl ⟨_, h2, by simp [unrecurseOne, h1]⟩
    · exact .inl ⟨r, h1, by simp [unrecurseOne, h2, h3]⟩
    · exact .inr rfl

variable (hn : NewSymbol eps ps b) (hbase : ∃ q ∈ ps, q.input = a ∧ q.output.head? ≠ some a)

include hbase in
theorem isNonTerminal_iff {x : T} :
    IsNonTerminal (unrecurse eps a b ps) x ↔ IsNonTerminal ps x ∨ x = b := by
  constructor
  · rintro ⟨q, hq, rfl⟩
    rcases mem_iff.1 hq with ⟨h1, _⟩ | ⟨l, _, _, rfl⟩ | ⟨r, h1, h2, _, rfl⟩ | rfl
    · exact .inl ⟨q, h1, rfl⟩
    · exact .inr rfl
    · exact .inl ⟨r, h1, h2⟩
    · exact .inr rfl
  · rintro (⟨q, hq, rfl⟩ | rfl)
    · by_cases h : q.input = a
      · obtain ⟨r, h1, h2, h3⟩ := hbase
        exact ⟨_, mem_iff.2 (.inr (.inr (.inl ⟨r, h1, h2, h3, rfl⟩))), h.symm⟩
      · exact ⟨q, mem_iff.2 (.inl ⟨hq, h⟩), rfl⟩
    · exact ⟨_, mem_iff.2 (.inr (.inr (.inr rfl))), rfl⟩

include hn in
theorem ne_b (ha : IsNonTerminal ps a) : a ≠ b := by
  rintro rfl
  obtain ⟨q, hq, rfl⟩ := ha
  exact (hn.2 q hq).1 rfl

theorem b_nil : Expands eps (unrecurse eps a b ps) b [] :=
  .node ⟨b, [eps]⟩ [] (mem_iff.2 (.inr (.inr (.inr rfl)))) (by simp only [rhs, if_true]; exact .nil)

/-- A repetition can be continued. -/
theorem b_append (hn : NewSymbol eps ps b) (hab : a ≠ b) {l : List T} (hl : l ≠ [])
    (hp : (⟨a, a :: l⟩ : Production T) ∈ ps)
    {w v : List T} (hw : Expands eps (unrecurse eps a b ps) b w)
    (hv : ExpandsAll eps (unrecurse eps a b ps) l v) :
    Expands eps (unrecurse eps a b ps) b (w ++ v) := by
  have hmem : (⟨b, l ++ [b]⟩ : Production T) ∈ unrecurse eps a b ps :=
    mem_iff.2 (.inr (.inl ⟨l, hl, hp, rfl⟩))
  have hstop : Expands eps (unrecurse eps a b ps) b v := by
    have := hv.append (ExpandsAll.single.2 (b_nil (a := a)))
    rw [List.append_nil] at this
    refine .node ⟨b, l ++ [b]⟩ v hmem ?_
    rw [rhs_of_ne (append_ne_eps hn.1 l)]
    exact this
  refine Expands.rec (eps := eps) (ps := unrecurse eps a b ps)
    (motive_1 := fun x w _ => x = b → Expands eps (unrecurse eps a b ps) b (w ++ v))
    (motive_2 := fun xs w _ => ∀ ys, xs = ys ++ [b] → ExpandsAll eps (unrecurse eps a b ps) xs (w ++ v))
    ?_ ?_ ?_ ?_ hw rfl
  · rintro x hx _ rfl
    exact absurd ⟨_, mem_iff.2 (.inr (.inr (.inr rfl))), rfl⟩ hx
  · intro p w hp' h ih e
    rcases mem_iff.1 hp' with ⟨h1, _⟩ | ⟨l', _, _, rfl⟩ | ⟨r, h1, h2, _, rfl⟩ | rfl
    · exact absurd e (hn.2 p h1).1
    · refine .node ⟨b, l' ++ [b]⟩ (w ++ v) hp' (ih l' ?_)
      rw [rhs_of_ne (append_ne_eps hn.1 l')]
    · exact absurd e hab
    · simp only [rhs, if_true] at h
      cases h
      exact hstop
  · intro ys h
    simp at h
  · intro x xs w w' h1 h2 ih1 ih2 ys h
    rw [List.append_assoc]
    cases ys with
    | nil =>
      simp only [List.nil_append, List.cons.injEq] at h
      obtain ⟨rfl, rfl⟩ := h
      cases h2
      rw [List.nil_append]
      exact ExpandsAll.single.2 (ih1 rfl)
    | cons y ys =>
      simp only [List.cons_append, List.cons.injEq] at h
      exact .cons x xs w (w' ++ v) h1 (ih2 ys h.2)

/-- A word of `a` that begins with a word of a production that is not left-recursive. -/
def Dec (eps a b : T) (ps : List (Production T)) (w : List T) : Prop :=
  ∃ r ∈ ps, r.input = a ∧ r.output.head? ≠ some a ∧ ∃ u v, w = u ++ v ∧
    ExpandsAll eps (unrecurse eps a b ps) (rhs eps r) u ∧ Expands eps (unrecurse eps a b ps) b v

theorem Dec.expands (hn : NewSymbol eps ps b) {w : List T} (h : Dec eps a b ps w) :
    Expands eps (unrecurse eps a b ps) a w := by
  obtain ⟨r, h1, h2, h3, u, v, rfl, h4, h5⟩ := h
  refine .node ⟨a, rhs eps r ++ [b]⟩ (u ++ v) (mem_iff.2 (.inr (.inr (.inl ⟨r, h1, h2, h3, rfl⟩)))) ?_
  rw [rhs_of_ne (append_ne_eps hn.1 _)]
  exact h4.append (ExpandsAll.single.2 h5)

include hbase in
theorem expands_of (hwf : WellFormed eps ps) (hn : NewSymbol eps ps b) {x : T} {w : List T}
    (h : Expands eps ps x w) (hx : x ≠ b) : Expands eps (unrecurse eps a b ps) x w := by
  have ha : IsNonTerminal ps a := by obtain ⟨q, h1, h2, _⟩ := hbase; exact ⟨q, h1, h2⟩
  have hab := ne_b hn ha
  have hout : ∀ p ∈ ps, b ∉ rhs eps p := fun p hp hb => (hn.2 p hp).2 (rhs_sub hb)
  refine (Expands.rec (eps := eps) (ps := ps)
    (motive_1 := fun x w _ => x ≠ b → Expands eps (unrecurse eps a b ps) x w ∧ (x = a → Dec eps a b ps w))
    (motive_2 := fun xs w _ => b ∉ xs → ExpandsAll eps (unrecurse eps a b ps) xs w ∧
      ∀ ys, xs = a :: ys → ∃ u v, w = u ++ v ∧ Dec eps a b ps u ∧
        ExpandsAll eps (unrecurse eps a b ps) ys v) ?_ ?_ ?_ ?_ h hx).1
  · intro x h1 h2 h3
    exact ⟨.leaf x (fun h => ((isNonTerminal_iff hbase).1 h).elim h1 h3) h2,
      fun e => absurd (e ▸ ha) h1⟩
  · intro p w hp _ ih _
    obtain ⟨ih1, ih2⟩ := ih (hout p hp)
    by_cases he : p.input = a
    · have hd : Dec eps a b ps w := by
        by_cases hh : p.output.head? = some a
        · obtain ⟨i, o⟩ := p
          cases o with
          | nil => simp at hh
          | cons y l =>
            simp only [List.head?_cons, Option.some.injEq] at hh
            subst hh
            simp only at he
            subst he
            have hr : rhs eps ⟨i, i :: l⟩ = i :: l := by
              apply rhs_of_ne
              intro h
              simp only [List.cons.injEq] at h
              exact (hwf _ hp).1 h.1
            obtain ⟨u, v, rfl, ⟨r, k1, k2, k3, u1, u2, rfl, k4, k5⟩, h2⟩ := ih2 l hr
            by_cases hl : l = []
            · subst hl
              cases h2
              exact ⟨r, k1, k2, k3, u1, u2, by simp, k4, k5⟩
            · exact ⟨r, k1, k2, k3, u1, u2 ++ v, by simp, k4, b_append hn hab hl hp k5 h2⟩
        · exact ⟨p, hp, he, hh, w, [], by simp, ih1, b_nil⟩
      exact ⟨he ▸ hd.expands hn, fun _ => hd⟩
    · exact ⟨.node p w (mem_iff.2 (.inl ⟨hp, he⟩)) ih1, fun e => absurd e he⟩
  · intro _
    exact ⟨.nil, by simp⟩
  · intro x xs w w' _ _ ih1 ih2 hb
    obtain ⟨h1, h2⟩ := ih1 (fun e => hb (by simp [e]))
    obtain ⟨h3, _⟩ := ih2 (fun e => hb (by simp [e]))
    refine ⟨.cons x xs w w' h1 h3, fun ys e => ?_⟩
    simp only [List.cons.injEq] at e
    obtain ⟨rfl, rfl⟩ := e
    exact ⟨w, w', rfl, h2 rfl, h3⟩

include hbase in
theorem expands_back (hwf : WellFormed eps ps) (hn : NewSymbol eps ps b) {x : T} {w : List T}
    (h : Expands eps (unrecurse eps a b ps) x w) (hx : x ≠ b) : Expands eps ps x w := by
  have ha : IsNonTerminal ps a := by obtain ⟨q, h1, h2, _⟩ := hbase; exact ⟨q, h1, h2⟩
  have hab := ne_b hn ha
  have hane : a ≠ eps := by obtain ⟨q, h1, rfl⟩ := ha; exact (hwf q h1).1
  have hout : ∀ p ∈ ps, b ∉ rhs eps p := fun p hp hb => (hn.2 p hp).2 (rhs_sub hb)
  refine (Expands.rec (eps := eps) (ps := unrecurse eps a b ps)
    (motive_1 := fun x w _ => (x ≠ b → Expands eps ps x w) ∧
      (x = b → ∀ u, Expands eps ps a u → Expands eps ps a (u ++ w)))
    (motive_2 := fun xs w _ => (b ∉ xs → ExpandsAll eps ps xs w) ∧
      ∀ ys, b ∉ ys → xs = ys ++ [b] → ∃ w1 w2, w = w1 ++ w2 ∧ ExpandsAll eps ps ys w1 ∧
        ∀ u, Expands eps ps a u → Expands eps ps a (u ++ w2)) ?_ ?_ ?_ ?_ h).1 hx
  · intro x h1 h2
    rw [isNonTerminal_iff hbase, not_or] at h1
    exact ⟨fun _ => .leaf x h1.1 h2, fun e => absurd e h1.2⟩
  · intro p w hp h ih
    rcases mem_iff.1 hp with ⟨h1, h2⟩ | ⟨l, h1, h2, rfl⟩ | ⟨r, h1, h2, h3, rfl⟩ | rfl
    · exact ⟨fun _ => .node p w h1 (ih.1 (hout p h1)), fun e => absurd e (hn.2 p h1).1⟩
    · refine ⟨fun e => absurd rfl e, fun _ u hu => ?_⟩
      have hbl : b ∉ l := fun hb => (hn.2 _ h2).2 (by simp [hb])
      obtain ⟨w1, w2, rfl, k1, k2⟩ := ih.2 l hbl (rhs_of_ne (append_ne_eps hn.1 l))
      rw [← List.append_assoc]
      refine k2 _ (.node ⟨a, a :: l⟩ (u ++ w1) h2 ?_)
      rw [rhs_of_ne (by
        intro h
        simp only [List.cons.injEq] at h
        exact hane h.1)]
      exact .cons a l u w1 hu k1
    · refine ⟨fun _ => ?_, fun e => absurd e hab⟩
      obtain ⟨w1, w2, rfl, k1, k2⟩ := ih.2 (rhs eps r) (hout r h1) (rhs_of_ne (append_ne_eps hn.1 _))
      exact k2 _ (h2 ▸ .node r w1 h1 k1)
    · refine ⟨fun e => absurd rfl e, fun _ u hu => ?_⟩
      simp only [rhs, if_true] at h
      cases h
      rw [List.append_nil]
      exact hu
  · exact ⟨fun _ => .nil, by simp⟩
  · intro x xs w w' _ h2 ih1 ih2
    constructor
    · intro hb
      exact .cons x xs w w' (ih1.1 fun e => hb (by simp [e])) (ih2.1 fun e => hb (by simp [e]))
    · intro ys hb e
      cases ys with
      | nil =>
        simp only [List.nil_append, List.cons.injEq] at e
        obtain ⟨rfl, rfl⟩ := e
        cases h2
        exact ⟨[], w, by simp, .nil, ih1.2 rfl⟩
      | cons y ys =>
        simp only [List.cons_append, List.cons.injEq] at e
        obtain ⟨rfl, e⟩ := e
        obtain ⟨w1, w2, rfl, k1, k2⟩ := ih2.2 ys (fun e => hb (by simp [e])) e
        exact ⟨w ++ w1, w2, by simp, .cons x ys w w1 (ih1.1 fun e => hb (by simp [e])) k1, k2⟩

include hbase in
theorem wellFormed (hwf : WellFormed eps ps) (hn : NewSymbol eps ps b) :
    WellFormed eps (unrecurse eps a b ps) := by
  have ha : a ≠ eps := by obtain ⟨q, h1, rfl, _⟩ := hbase; exact (hwf q h1).1
  intro q hq
  rcases mem_iff.1 hq with ⟨h1, _⟩ | ⟨l, h1, h2, rfl⟩ | ⟨r, h1, h2, _, rfl⟩ | rfl
  · exact hwf q h1
  · refine ⟨hn.1, by simp, fun h => ?_⟩
    rcases List.mem_append.1 h with h | h
    · have := (hwf _ h2).2.2 (by simp [h])
      simp at this
      exact absurd this h1
    · exact absurd (by simpa using h) hn.1.symm
  · refine ⟨ha, by simp, fun h => ?_⟩
    rcases List.mem_append.1 h with h | h
    · exfalso
      have hs := (hwf r h1).2.2 (rhs_sub h)
      unfold rhs at h
      split at h
      · simp at h
      · rename_i hc
        obtain ⟨y, hy⟩ := List.length_eq_one_iff.1 hs
        rw [hy] at h hc
        simp only [List.mem_singleton] at h
        exact hc (by rw [h])
    · exact absurd (by simpa using h) hn.1.symm
  · exact ⟨hn.1, by simp, by simp⟩

include hbase in
theorem sentence_iff (hwf : WellFormed eps ps) (hn : NewSymbol eps ps b) {x : T} (hx : IsNonTerminal ps x)
    {w : List T} : Sentence eps x (unrecurse eps a b ps) w ↔ Sentence eps x ps w := by
  have hxb : x ≠ b := by
    rintro rfl
    obtain ⟨q, hq, rfl⟩ := hx
    exact (hn.2 q hq).1 rfl
  rw [sentence_iff_expands hx, sentence_iff_expands ((isNonTerminal_iff hbase).2 (.inl hx))]
  exact ⟨fun h => expands_back hbase hwf hn h hxb, fun h => expands_of hbase hwf hn h hxb⟩

end Unrecurse

/-! ## Left factoring -/

namespace Factor

variable {c : List T}

theorem mem_iff {q : Production T} : q ∈ factor eps a b c ps ↔
    q = ⟨a, c ++ [b]⟩ ∨ (q ∈ ps ∧ ¬ (q.input = a ∧ c <+: q.output)) ∨
    (∃ r ∈ ps, r.input = a ∧ c <+: r.output ∧
      q = ⟨b, if r.output = c then [eps] else r.output.drop c.length⟩) := by
  unfold factor
  rw [List.mem_cons, List.mem_map]
  refine or_congr Iff.rfl ⟨?_, ?_⟩
  · rintro ⟨r, hr, rfl⟩
    unfold factorOne
    split
    · rename_i h
      exact .inr ⟨r, hr, h.1, h.2, rfl⟩
    · rename_i h
      exact .inl ⟨hr, h⟩
  · rintro (⟨h1, h2⟩ | ⟨r, h1, h2, h3, rfl⟩)
    · exact ⟨q, h1, by rw [factorOne, if_neg h2]⟩
    · exact ⟨r, h1, by rw [factorOne, if_pos ⟨h2, h3⟩]⟩

variable (hbase : ∃ q ∈ ps, q.input = a ∧ c <+: q.output)

include hbase in
theorem isNonTerminal_iff {x : T} :
    IsNonTerminal (factor eps a b c ps) x ↔ IsNonTerminal ps x ∨ x = b := by
  constructor
  · rintro ⟨q, hq, rfl⟩
    rcases mem_iff.1 hq with rfl | ⟨h1, _⟩ | ⟨r, h1, h2, _, rfl⟩
    · obtain ⟨q, h1, h2, _⟩ := hbase
      exact .inl ⟨q, h1, h2⟩
    · exact .inl ⟨q, h1, rfl⟩
    · exact .inr rfl
  · rintro (⟨q, hq, rfl⟩ | rfl)
    · by_cases h : q.input = a
      · exact ⟨_, mem_iff.2 (.inl rfl), h.symm⟩
      · exact ⟨q, mem_iff.2 (.inr (.inl ⟨hq, fun h' => h h'.1⟩)), rfl⟩
    · obtain ⟨q, h1, h2, h3⟩ := hbase
      exact ⟨_, mem_iff.2 (.inr (.inr ⟨q, h1, h2, h3, rfl⟩)), rfl⟩

theorem rhs_of_prefix (hc : c ≠ []) (he : eps ∉ c) {r : Production T} (h : c <+: r.output) :
    rhs eps r = c ++ r.output.drop c.length := by
  obtain ⟨l, hl⟩ := h
  rw [rhs_of_ne, ← hl, List.drop_left]
  rw [← hl]
  intro h
  cases c with
  | nil => exact hc rfl
  | cons y c =>
    simp only [List.cons_append, List.cons.injEq] at h
    exact he (by simp [h.1])

theorem rhs_rest (hwf : WellFormed eps ps) (hc : c ≠ []) {r : Production T}
    (hr : r ∈ ps) (h : c <+: r.output) :
    rhs eps ⟨b, if r.output = c then [eps] else r.output.drop c.length⟩ = r.output.drop c.length := by
  by_cases e : r.output = c
  · simp [e, rhs]
  · simp only [e, if_false]
    apply rhs_of_ne
    simp only
    intro h'
    have h1 := (hwf r hr).2.2 (List.mem_of_mem_drop (i := c.length) (by rw [h']; simp))
    have h2 : (r.output.drop c.length).length = 1 := by rw [h']; rfl
    rw [List.length_drop] at h2
    have := List.length_pos_iff.2 hc
    omega

include hbase in
theorem expands_of (hwf : WellFormed eps ps) (hc : c ≠ []) (he : eps ∉ c) (hn : NewSymbol eps ps b) {x : T}
    {w : List T} (h : Expands eps ps x w) (hx : x ≠ b) : Expands eps (factor eps a b c ps) x w := by
  have hout : ∀ p ∈ ps, b ∉ rhs eps p := fun p hp hb => (hn.2 p hp).2 (rhs_sub hb)
  refine Expands.rec (eps := eps) (ps := ps)
    (motive_1 := fun x w _ => x ≠ b → Expands eps (factor eps a b c ps) x w)
    (motive_2 := fun xs w _ => b ∉ xs → ExpandsAll eps (factor eps a b c ps) xs w) ?_ ?_ ?_ ?_ h hx
  · intro x h1 h2 h3
    exact .leaf x (fun h => ((isNonTerminal_iff hbase).1 h).elim h1 h3) h2
  · intro p w hp _ ih _
    have ih := ih (hout p hp)
    by_cases hq : p.input = a ∧ c <+: p.output
    · rw [rhs_of_prefix hc he hq.2] at ih
      obtain ⟨u, v, rfl, h1, h2⟩ := ih.split
      rw [hq.1]
      refine .node ⟨a, c ++ [b]⟩ (u ++ v) (mem_iff.2 (.inl rfl)) ?_
      rw [rhs_of_ne (append_ne_eps hn.1 c)]
      refine h1.append (ExpandsAll.single.2
        (.node ⟨b, _⟩ v (mem_iff.2 (.inr (.inr ⟨p, hp, hq.1, hq.2, rfl⟩))) ?_))
      rw [rhs_rest hwf hc hp hq.2]
      exact h2
    · exact .node p w (mem_iff.2 (.inr (.inl ⟨hp, hq⟩))) ih
  · intro _
    exact .nil
  · intro x xs w w' _ _ ih1 ih2 hb
    exact .cons x xs w w' (ih1 fun e => hb (by simp [e])) (ih2 fun e => hb (by simp [e]))

include hbase in
theorem expands_back (hwf : WellFormed eps ps) (hc : c ≠ []) (he : eps ∉ c) (hn : NewSymbol eps ps b) {x : T}
    {w : List T} (h : Expands eps (factor eps a b c ps) x w) (hx : x ≠ b) : Expands eps ps x w := by
  have hab : a ≠ b := by obtain ⟨q, h1, rfl, _⟩ := hbase; exact (hn.2 q h1).1
  have hout : ∀ p ∈ ps, b ∉ rhs eps p := fun p hp hb => (hn.2 p hp).2 (rhs_sub hb)
  have hbc : b ∉ c := by
    obtain ⟨q, h1, _, h2⟩ := hbase
    exact fun hb => (hn.2 q h1).2 (h2.subset hb)
  refine (Expands.rec (eps := eps) (ps := factor eps a b c ps)
    (motive_1 := fun x w _ => (x ≠ b → Expands eps ps x w) ∧
      (x = b → ∃ r ∈ ps, r.input = a ∧ c <+: r.output ∧ ExpandsAll eps ps (r.output.drop c.length) w))
    (motive_2 := fun xs w _ => (b ∉ xs → ExpandsAll eps ps xs w) ∧
      ∀ ys, b ∉ ys → xs = ys ++ [b] → ∃ w1 w2, w = w1 ++ w2 ∧ ExpandsAll eps ps ys w1 ∧
        ∃ r ∈ ps, r.input = a ∧ c <+: r.output ∧ ExpandsAll eps ps (r.output.drop c.length) w2)
    ?_ ?_ ?_ ?_ h).1 hx
  · intro x h1 h2
    rw [isNonTerminal_iff hbase, not_or] at h1
    exact ⟨fun _ => .leaf x h1.1 h2, fun e => absurd e h1.2⟩
  · intro p w hp h ih
    rcases mem_iff.1 hp with rfl | ⟨h1, h2⟩ | ⟨r, h1, h2, h3, rfl⟩
    · refine ⟨fun _ => ?_, fun e => absurd e hab⟩
      obtain ⟨w1, w2, rfl, k1, r, k2, k3, k4, k5⟩ := ih.2 c hbc (rhs_of_ne (append_ne_eps hn.1 c))
      have := Expands.node r (w1 ++ w2) k2 (by rw [rhs_of_prefix hc he k4]; exact k1.append k5)
      exact k3 ▸ this
    · exact ⟨fun _ => .node p w h1 (ih.1 (hout p h1)), fun e => absurd e (hn.2 p h1).1⟩
    · refine ⟨fun e => absurd rfl e, fun _ => ⟨r, h1, h2, h3, ?_⟩⟩
      rw [rhs_rest hwf hc h1 h3] at ih
      exact ih.1 fun hb => (hn.2 r h1).2 (List.mem_of_mem_drop hb)
  · exact ⟨fun _ => .nil, by simp⟩
  · intro x xs w w' _ h2 ih1 ih2
    constructor
    · intro hb
      exact .cons x xs w w' (ih1.1 fun e => hb (by simp [e])) (ih2.1 fun e => hb (by simp [e]))
    · intro ys hb e
      cases ys with
      | nil =>
        simp only [List.nil_append, List.cons.injEq] at e
        obtain ⟨rfl, rfl⟩ := e
        cases h2
        exact ⟨[], w, by simp, .nil, ih1.2 rfl⟩
      | cons y ys =>
        simp only [List.cons_append, List.cons.injEq] at e
        obtain ⟨rfl, e⟩ := e
        obtain ⟨w1, w2, rfl, k1, k2⟩ := ih2.2 ys (fun e => hb (by simp [e])) e
        exact ⟨w ++ w1, w2, by simp, .cons x ys w w1 (ih1.1 fun e => hb (by simp [e])) k1, k2⟩

include hbase in
theorem wellFormed (hwf : WellFormed eps ps) (hc : c ≠ []) (he : eps ∉ c) (hn : NewSymbol eps ps b) :
    WellFormed eps (factor eps a b c ps) := by
  have ha : a ≠ eps := by obtain ⟨q, h1, rfl, _⟩ := hbase; exact (hwf q h1).1
  intro q hq
  rcases mem_iff.1 hq with rfl | ⟨h1, _⟩ | ⟨r, h1, h2, h3, rfl⟩
  · refine ⟨ha, by simp, fun h => ?_⟩
    rcases List.mem_append.1 h with h | h
    · exact absurd h he
    · exact absurd (by simpa using h) hn.1.symm
  · exact hwf q h1
  · by_cases e : r.output = c
    · simp only [e, if_true]
      exact ⟨hn.1, by simp, by simp⟩
    · have hl : c.length < r.output.length := by
        rcases Nat.lt_or_ge c.length r.output.length with h | h
        · exact h
        · exact absurd (h3.eq_of_length (Nat.le_antisymm h3.length_le h)).symm e
      simp only [e, if_false]
      refine ⟨hn.1, ?_, fun h => ?_⟩
      · intro h
        have := congrArg List.length h
        rw [List.length_drop, List.length_nil] at this
        omega
      · have h4 := (hwf r h1).2.2 (List.mem_of_mem_drop h)
        have := List.length_pos_iff.2 hc
        omega

include hbase in
theorem sentence_iff (hwf : WellFormed eps ps) (hc : c ≠ []) (he : eps ∉ c) (hn : NewSymbol eps ps b) {x : T}
    (hx : IsNonTerminal ps x) {w : List T} : Sentence eps x (factor eps a b c ps) w ↔ Sentence eps x ps w := by
  have hxb : x ≠ b := by
    rintro rfl
    obtain ⟨q, hq, rfl⟩ := hx
    exact (hn.2 q hq).1 rfl
  rw [sentence_iff_expands hx, sentence_iff_expands ((isNonTerminal_iff hbase).2 (.inl hx))]
  exact ⟨fun h => expands_back hbase hwf hc he hn h hxb, fun h => expands_of hbase hwf hc he hn h hxb⟩

end Factor

/-! ## Unfolding -/

namespace Unfold

variable {x y : T} {u v : List T}

theorem mem_iff {q : Production T} : q ∈ unfold eps x y u v ps ↔
    (q ∈ ps ∧ q ≠ ⟨x, u ++ y :: v⟩) ∨
    ((⟨x, u ++ y :: v⟩ : Production T) ∈ ps ∧ ∃ r ∈ ps, r.input = y ∧
      q = ⟨x, outputOf eps (u ++ rhs eps r ++ v)⟩) := by
  unfold Spec.unfold
  rw [List.mem_flatMap]
  constructor
  · rintro ⟨r, hr, hq⟩
    split at hq
    · rename_i e
      subst e
      rw [List.mem_map] at hq
      obtain ⟨r', h1, rfl⟩ := hq
      rw [List.mem_filter, decide_eq_true_eq] at h1
      exact .inr ⟨hr, r', h1.1, h1.2, rfl⟩
    · rename_i e
      rw [List.mem_singleton] at hq
      subst hq
      exact .inl ⟨hr, e⟩
  · rintro (⟨h1, h2⟩ | ⟨h1, r, h2, h3, rfl⟩)
    · exact ⟨q, h1, by simp [h2]⟩
    · refine ⟨_, h1, ?_⟩
      rw [if_pos rfl, List.mem_map]
      exact ⟨r, by rw [List.mem_filter, decide_eq_true_eq]; exact ⟨h2, h3⟩, rfl⟩

theorem rhs_outputOf {x : T} {l : List T} (he : eps ∉ l) : rhs eps ⟨x, outputOf eps l⟩ = l := by
  unfold outputOf
  split
  · rename_i h; simp [rhs, h]
  · apply rhs_of_ne
    simp only
    rintro rfl
    simp at he

variable (hy : IsNonTerminal ps y)

include hy in
theorem isNonTerminal_iff {z : T} : IsNonTerminal (unfold eps x y u v ps) z ↔ IsNonTerminal ps z := by
  constructor
  · rintro ⟨q, hq, rfl⟩
    rcases mem_iff.1 hq with ⟨h1, _⟩ | ⟨h1, r, _, _, rfl⟩
    · exact ⟨q, h1, rfl⟩
    · exact ⟨_, h1, rfl⟩
  · rintro ⟨q, hq, rfl⟩
    by_cases h : q = ⟨x, u ++ y :: v⟩
    · subst h
      obtain ⟨r, h1, h2⟩ := hy
      exact ⟨_, mem_iff.2 (.inr ⟨hq, r, h1, h2, rfl⟩), rfl⟩
    · exact ⟨q, mem_iff.2 (.inl ⟨hq, h⟩), rfl⟩

theorem eps_not_mem_rhs (hwf : WellFormed eps ps) {p : Production T} (hp : p ∈ ps) : eps ∉ rhs eps p := by
  unfold rhs
  split
  · simp
  · rename_i h
    intro he
    obtain ⟨z, hz⟩ := List.length_eq_one_iff.1 ((hwf p hp).2.2 he)
    rw [hz] at h he
    simp only [List.mem_singleton] at he
    exact h (by rw [he])

include hy in
theorem rhs_old (hwf : WellFormed eps ps) (hp : (⟨x, u ++ y :: v⟩ : Production T) ∈ ps) :
    rhs eps ⟨x, u ++ y :: v⟩ = u ++ y :: v := by
  apply rhs_of_ne
  simp only
  intro h
  obtain ⟨r, h1, rfl⟩ := hy
  have : r.input ∈ ([eps] : List T) := by rw [← h]; simp
  exact (hwf r h1).1 (by simpa using this)

include hy in
theorem eps_not_mem (hwf : WellFormed eps ps) (hp : (⟨x, u ++ y :: v⟩ : Production T) ∈ ps)
    {r : Production T} (hr : r ∈ ps) : eps ∉ u ++ rhs eps r ++ v := by
  have h1 := eps_not_mem_rhs hwf hp
  rw [rhs_old hy hwf hp] at h1
  have h2 := eps_not_mem_rhs hwf hr
  simp only [List.mem_append, List.mem_cons, not_or] at h1 ⊢
  exact ⟨⟨h1.1, h2⟩, h1.2.2⟩

include hy in
theorem expands_of (hwf : WellFormed eps ps) {z : T} {w : List T} (h : Expands eps ps z w) :
    Expands eps (unfold eps x y u v ps) z w := by
  refine (Expands.rec (eps := eps) (ps := ps)
    (motive_1 := fun z w _ => Expands eps (unfold eps x y u v ps) z w ∧
      (IsNonTerminal ps z → ∃ r ∈ ps, r.input = z ∧ ExpandsAll eps (unfold eps x y u v ps) (rhs eps r) w))
    (motive_2 := fun zs w _ => ExpandsAll eps (unfold eps x y u v ps) zs w ∧
      ∀ u' z v', zs = u' ++ z :: v' → IsNonTerminal ps z → ∃ w1 w2 w3, w = w1 ++ w2 ++ w3 ∧
        ExpandsAll eps (unfold eps x y u v ps) u' w1 ∧
        (∃ r ∈ ps, r.input = z ∧ ExpandsAll eps (unfold eps x y u v ps) (rhs eps r) w2) ∧
        ExpandsAll eps (unfold eps x y u v ps) v' w3) ?_ ?_ ?_ ?_ h).1
  · intro z h1 h2
    exact ⟨.leaf z (fun h => h1 ((isNonTerminal_iff hy).1 h)) h2, fun h => absurd h h1⟩
  · intro p w hp _ ih
    refine ⟨?_, fun _ => ⟨p, hp, rfl, ih.1⟩⟩
    by_cases h : p = ⟨x, u ++ y :: v⟩
    · subst h
      obtain ⟨w1, w2, w3, rfl, h1, ⟨r, h2, h3, h4⟩, h5⟩ := ih.2 u y v (rhs_old hy hwf hp) hy
      refine .node ⟨x, outputOf eps (u ++ rhs eps r ++ v)⟩ _ (mem_iff.2 (.inr ⟨hp, r, h2, h3, rfl⟩)) ?_
      rw [rhs_outputOf (eps_not_mem hy hwf hp h2)]
      exact (h1.append h4).append h5
    · exact .node p w (mem_iff.2 (.inl ⟨hp, h⟩)) ih.1
  · exact ⟨.nil, by simp⟩
  · intro z zs w w' _ _ ih1 ih2
    refine ⟨.cons z zs w w' ih1.1 ih2.1, fun u' z' v' e hz => ?_⟩
    cases u' with
    | nil =>
      simp only [List.nil_append, List.cons.injEq] at e
      obtain ⟨rfl, rfl⟩ := e
      exact ⟨[], w, w', by simp, .nil, ih1.2 hz, ih2.1⟩
    | cons z'' u' =>
      simp only [List.cons_append, List.cons.injEq] at e
      obtain ⟨rfl, e⟩ := e
      obtain ⟨w1, w2, w3, rfl, h1, h2, h3⟩ := ih2.2 u' z' v' e hz
      exact ⟨w ++ w1, w2, w3, by simp, .cons z u' w w1 ih1.1 h1, h2, h3⟩

include hy in
theorem expands_back (hwf : WellFormed eps ps) {z : T} {w : List T}
    (h : Expands eps (unfold eps x y u v ps) z w) : Expands eps ps z w := by
  refine Expands.rec (eps := eps) (ps := unfold eps x y u v ps)
    (motive_1 := fun z w _ => Expands eps ps z w)
    (motive_2 := fun zs w _ => ExpandsAll eps ps zs w) ?_ ?_ ?_ ?_ h
  · intro z h1 h2
    exact .leaf z (fun h => h1 ((isNonTerminal_iff hy).2 h)) h2
  · intro p w hp _ ih
    rcases mem_iff.1 hp with ⟨h1, _⟩ | ⟨h1, r, h2, h3, rfl⟩
    · exact .node p w h1 ih
    · rw [rhs_outputOf (eps_not_mem hy hwf h1 h2)] at ih
      obtain ⟨w1, w3, rfl, k1, k3⟩ := ih.split
      obtain ⟨w1, w2, rfl, k1, k2⟩ := k1.split
      refine .node ⟨x, u ++ y :: v⟩ _ h1 ?_
      rw [rhs_old hy hwf h1, List.append_assoc]
      exact k1.append (.cons y v w2 w3 (h3 ▸ .node r w2 h2 k2) k3)
  · exact .nil
  · intro z zs w w' _ _ ih1 ih2
    exact .cons z zs w w' ih1 ih2

include hy in
theorem wellFormed (hwf : WellFormed eps ps) : WellFormed eps (unfold eps x y u v ps) := by
  intro q hq
  rcases mem_iff.1 hq with ⟨h1, _⟩ | ⟨h1, r, h2, h3, rfl⟩
  · exact hwf q h1
  · have he := eps_not_mem hy hwf h1 h2
    have hx : x ≠ eps := (hwf _ h1).1
    simp only [outputOf]
    split
    · exact ⟨hx, by simp, by simp⟩
    · rename_i hne
      exact ⟨hx, hne, fun h => absurd h he⟩

include hy in
theorem sentence_iff (hwf : WellFormed eps ps) {z : T} (hz : IsNonTerminal ps z) {w : List T} :
    Sentence eps z (unfold eps x y u v ps) w ↔ Sentence eps z ps w := by
  rw [sentence_iff_expands hz, sentence_iff_expands ((isNonTerminal_iff hy).2 hz)]
  exact ⟨expands_back hy hwf, expands_of hy hwf⟩

end Unfold

/-! ## Folding -/

namespace Fold

variable {x : T} {u c v : List T}

theorem mem_iff {q : Production T} : q ∈ fold x b u c v ps ↔
    q = ⟨b, c⟩ ∨ (q ∈ ps ∧ q ≠ ⟨x, u ++ c ++ v⟩) ∨
    ((⟨x, u ++ c ++ v⟩ : Production T) ∈ ps ∧ q = ⟨x, u ++ b :: v⟩) := by
  unfold Spec.fold
  rw [List.mem_cons, List.mem_map]
  refine or_congr Iff.rfl ⟨?_, ?_⟩
  · rintro ⟨r, hr, rfl⟩
    split
    · rename_i h
      subst h
      exact .inr ⟨hr, rfl⟩
    · rename_i h
      exact .inl ⟨hr, h⟩
  · rintro (⟨h1, h2⟩ | ⟨h1, rfl⟩)
    · exact ⟨q, h1, by rw [if_neg h2]⟩
    · exact ⟨_, h1, by rw [if_pos rfl]⟩

theorem isNonTerminal_iff {z : T} : IsNonTerminal (fold x b u c v ps) z ↔ IsNonTerminal ps z ∨ z = b := by
  constructor
  · rintro ⟨q, hq, rfl⟩
    rcases mem_iff.1 hq with rfl | ⟨h1, _⟩ | ⟨h1, rfl⟩
    · exact .inr rfl
    · exact .inl ⟨q, h1, rfl⟩
    · exact .inl ⟨_, h1, rfl⟩
  · rintro (⟨q, hq, rfl⟩ | rfl)
    · by_cases h : q = ⟨x, u ++ c ++ v⟩
      · subst h
        exact ⟨_, mem_iff.2 (.inr (.inr ⟨hq, rfl⟩)), rfl⟩
      · exact ⟨q, mem_iff.2 (.inr (.inl ⟨hq, h⟩)), rfl⟩
    · exact ⟨_, mem_iff.2 (.inl rfl), rfl⟩

theorem rhs_c (hc : c ≠ []) (he : eps ∉ c) {z : T} : rhs eps ⟨z, c⟩ = c := by
  apply rhs_of_ne
  simp only
  rintro rfl
  simp at he

theorem rhs_old (hc : c ≠ []) (he : eps ∉ c) : rhs eps ⟨x, u ++ c ++ v⟩ = u ++ c ++ v := by
  apply rhs_of_ne
  simp only
  intro h
  cases c with
  | nil => exact hc rfl
  | cons z c =>
    have : z ∈ ([eps] : List T) := by rw [← h]; simp
    simp only [List.mem_singleton] at this
    exact he (by simp [this])

theorem rhs_new (hb : b ≠ eps) : rhs eps ⟨x, u ++ b :: v⟩ = u ++ b :: v := by
  apply rhs_of_ne
  simp only
  intro h
  have : b ∈ ([eps] : List T) := by rw [← h]; simp
  exact hb (by simpa using this)

theorem expands_of (hc : c ≠ []) (he : eps ∉ c) (hn : NewSymbol eps ps b) {z : T}
    {w : List T} (h : Expands eps ps z w) (hz : z ≠ b) : Expands eps (fold x b u c v ps) z w := by
  have hout : ∀ p ∈ ps, b ∉ rhs eps p := fun p hp hb => (hn.2 p hp).2 (rhs_sub hb)
  refine Expands.rec (eps := eps) (ps := ps)
    (motive_1 := fun z w _ => z ≠ b → Expands eps (fold x b u c v ps) z w)
    (motive_2 := fun zs w _ => b ∉ zs → ExpandsAll eps (fold x b u c v ps) zs w) ?_ ?_ ?_ ?_ h hz
  · intro z h1 h2 h3
    exact .leaf z (fun h => (isNonTerminal_iff.1 h).elim h1 h3) h2
  · intro p w hp _ ih _
    have ih := ih (hout p hp)
    by_cases h : p = ⟨x, u ++ c ++ v⟩
    · subst h
      rw [rhs_old hc he] at ih
      obtain ⟨w1, w3, rfl, k1, k3⟩ := ih.split
      obtain ⟨w1, w2, rfl, k1, k2⟩ := k1.split
      refine .node ⟨x, u ++ b :: v⟩ _ (mem_iff.2 (.inr (.inr ⟨hp, rfl⟩))) ?_
      rw [rhs_new hn.1, List.append_assoc]
      refine k1.append (.cons b v w2 w3 (.node ⟨b, c⟩ w2 (mem_iff.2 (.inl rfl)) ?_) k3)
      rw [rhs_c hc he]
      exact k2
    · exact .node p w (mem_iff.2 (.inr (.inl ⟨hp, h⟩))) ih
  · intro _
    exact .nil
  · intro x xs w w' _ _ ih1 ih2 hb
    exact .cons x xs w w' (ih1 fun e => hb (by simp [e])) (ih2 fun e => hb (by simp [e]))

theorem expands_back (hc : c ≠ []) (he : eps ∉ c) (hn : NewSymbol eps ps b)
    (hp : (⟨x, u ++ c ++ v⟩ : Production T) ∈ ps) {z : T}
    {w : List T} (h : Expands eps (fold x b u c v ps) z w) (hz : z ≠ b) : Expands eps ps z w := by
  have hout : ∀ p ∈ ps, b ∉ rhs eps p := fun p hp hb => (hn.2 p hp).2 (rhs_sub hb)
  have hxb : x ≠ b := (hn.2 _ hp).1
  have hbo := (hn.2 _ hp).2
  simp only [List.mem_append, not_or] at hbo
  obtain ⟨⟨hbu, hbc⟩, hbv⟩ := hbo
  refine (Expands.rec (eps := eps) (ps := fold x b u c v ps)
    (motive_1 := fun z w _ => (z ≠ b → Expands eps ps z w) ∧ (z = b → ExpandsAll eps ps c w))
    (motive_2 := fun zs w _ => (b ∉ zs → ExpandsAll eps ps zs w) ∧
      ∀ u' v', b ∉ u' → b ∉ v' → zs = u' ++ b :: v' → ExpandsAll eps ps (u' ++ c ++ v') w)
    ?_ ?_ ?_ ?_ h).1 hz
  · intro z h1 h2
    rw [isNonTerminal_iff, not_or] at h1
    exact ⟨fun _ => .leaf z h1.1 h2, fun e => absurd e h1.2⟩
  · intro p w hp' _ ih
    rcases mem_iff.1 hp' with rfl | ⟨h1, _⟩ | ⟨_, rfl⟩
    · rw [rhs_c hc he] at ih
      exact ⟨fun e => absurd rfl e, fun _ => ih.1 hbc⟩
    · exact ⟨fun _ => .node p w h1 (ih.1 (hout p h1)), fun e => absurd e (hn.2 p h1).1⟩
    · refine ⟨fun _ => ?_, fun e => absurd e hxb⟩
      rw [rhs_new hn.1] at ih
      refine .node ⟨x, u ++ c ++ v⟩ w hp ?_
      rw [rhs_old hc he]
      exact ih.2 u v hbu hbv rfl
  · exact ⟨fun _ => .nil, by simp⟩
  · intro z zs w w' _ _ ih1 ih2
    constructor
    · intro hb
      exact .cons z zs w w' (ih1.1 fun e => hb (by simp [e])) (ih2.1 fun e => hb (by simp [e]))
    · intro u' v' hu hv e
      cases u' with
      | nil =>
        simp only [List.nil_append, List.cons.injEq] at e
        obtain ⟨rfl, rfl⟩ := e
        exact (ih1.2 rfl).append (ih2.1 hv)
      | cons z' u' =>
        simp only [List.cons_append, List.cons.injEq] at e
        obtain ⟨rfl, e⟩ := e
        exact .cons z (u' ++ c ++ v') w w' (ih1.1 fun e => hu (by simp [e]))
          (ih2.2 u' v' (fun e => hu (by simp [e])) hv e)

theorem wellFormed (hwf : WellFormed eps ps) (hc : c ≠ []) (he : eps ∉ c) (hn : NewSymbol eps ps b) :
    WellFormed eps (fold x b u c v ps) := by
  intro q hq
  rcases mem_iff.1 hq with rfl | ⟨h1, _⟩ | ⟨h1, rfl⟩
  · exact ⟨hn.1, hc, fun h => absurd h he⟩
  · exact hwf q h1
  · refine ⟨(hwf _ h1).1, by simp, fun h => ?_⟩
    exfalso
    have h2 := Unfold.eps_not_mem_rhs hwf h1
    rw [rhs_old hc he] at h2
    simp only [List.mem_append, List.mem_cons, not_or] at h h2
    rcases h with h | h | h
    · exact h2.1.1 h
    · exact hn.1 h.symm
    · exact h2.2 h

theorem sentence_iff (hc : c ≠ []) (he : eps ∉ c) (hn : NewSymbol eps ps b)
    (hp : (⟨x, u ++ c ++ v⟩ : Production T) ∈ ps) {z : T} (hz : IsNonTerminal ps z) {w : List T} :
    Sentence eps z (fold x b u c v ps) w ↔ Sentence eps z ps w := by
  have hzb : z ≠ b := by
    rintro rfl
    obtain ⟨q, hq, rfl⟩ := hz
    exact (hn.2 q hq).1 rfl
  rw [sentence_iff_expands hz, sentence_iff_expands (isNonTerminal_iff.2 (.inl hz))]
  exact ⟨fun h => expands_back hc he hn hp h hzb, fun h => expands_of hc he hn h hzb⟩

end Fold

/-! ## Dropping symbols -/

namespace Drop

variable {ys : List T}

theorem mem_iff {q : Production T} : q ∈ drop ys ps ↔ q ∈ ps ∧ q.input ∉ ys := by
  unfold Spec.drop
  rw [List.mem_filter, decide_eq_true_eq]

theorem isNonTerminal_iff {z : T} : IsNonTerminal (drop ys ps) z ↔ IsNonTerminal ps z ∧ z ∉ ys := by
  constructor
  · rintro ⟨q, hq, rfl⟩
    exact ⟨⟨q, (mem_iff.1 hq).1, rfl⟩, (mem_iff.1 hq).2⟩
  · rintro ⟨⟨q, hq, rfl⟩, h⟩
    exact ⟨q, mem_iff.2 ⟨hq, h⟩, rfl⟩

theorem wellFormed (hwf : WellFormed eps ps) : WellFormed eps (drop ys ps) :=
  fun q hq => hwf q (mem_iff.1 hq).1

variable (hu : ∀ q ∈ ps, q.input ∉ ys → ∀ y ∈ ys, y ∉ q.output)

include hu in
theorem expands_of {z : T} {w : List T} (h : Expands eps ps z w) (hz : z ∉ ys) :
    Expands eps (drop ys ps) z w := by
  refine Expands.rec (eps := eps) (ps := ps)
    (motive_1 := fun z w _ => z ∉ ys → Expands eps (drop ys ps) z w)
    (motive_2 := fun zs w _ => (∀ z ∈ zs, z ∉ ys) → ExpandsAll eps (drop ys ps) zs w) ?_ ?_ ?_ ?_ h hz
  · intro z h1 h2 _
    exact .leaf z (fun h => h1 (isNonTerminal_iff.1 h).1) h2
  · intro p w hp _ ih hi
    exact .node p w (mem_iff.2 ⟨hp, hi⟩) (ih fun z hz hy => hu p hp hi z hy (rhs_sub hz))
  · intro _
    exact .nil
  · intro z zs w w' _ _ ih1 ih2 hb
    exact .cons z zs w w' (ih1 (hb z (by simp))) (ih2 fun z' hz' => hb z' (by simp [hz']))

include hu in
theorem expands_back {z : T} {w : List T} (h : Expands eps (drop ys ps) z w) (hz : z ∉ ys) :
    Expands eps ps z w := by
  refine Expands.rec (eps := eps) (ps := drop ys ps)
    (motive_1 := fun z w _ => z ∉ ys → Expands eps ps z w)
    (motive_2 := fun zs w _ => (∀ z ∈ zs, z ∉ ys) → ExpandsAll eps ps zs w) ?_ ?_ ?_ ?_ h hz
  · intro z h1 h2 h3
    exact .leaf z (fun h => h1 (isNonTerminal_iff.2 ⟨h, h3⟩)) h2
  · intro p w hp _ ih _
    obtain ⟨hp, hi⟩ := mem_iff.1 hp
    exact .node p w hp (ih fun z hz hy => hu p hp hi z hy (rhs_sub hz))
  · intro _
    exact .nil
  · intro z zs w w' _ _ ih1 ih2 hb
    exact .cons z zs w w' (ih1 (hb z (by simp))) (ih2 fun z' hz' => hb z' (by simp [hz']))

include hu in
theorem sentence_iff {z : T} (hz : IsNonTerminal ps z) (hy : z ∉ ys) {w : List T} :
    Sentence eps z (drop ys ps) w ↔ Sentence eps z ps w := by
  rw [sentence_iff_expands hz, sentence_iff_expands (isNonTerminal_iff.2 ⟨hz, hy⟩)]
  exact ⟨fun h => expands_back hu h hy, fun h => expands_of hu h hy⟩

end Drop

/-- A rewritten grammar is well formed, and has the same sentences. -/
theorem Rewritten.keeps {init : T} {ps' : List (Production T)} (h : Rewritten eps init ps ps')
    (hwf : WellFormed eps ps) (hi : IsNonTerminal ps init) :
    WellFormed eps ps' ∧ IsNonTerminal ps' init ∧
      ∀ w, Sentence eps init ps' w ↔ Sentence eps init ps w := by
  induction h with
  | refl => exact ⟨hwf, hi, fun _ => Iff.rfl⟩
  | unrecurse a b _ hn hb ih =>
    obtain ⟨h1, h2, h3⟩ := ih
    exact ⟨Unrecurse.wellFormed hb h1 hn, (Unrecurse.isNonTerminal_iff hb).2 (.inl h2),
      fun w => (Unrecurse.sentence_iff hb h1 hn h2).trans (h3 w)⟩
  | factor a b c _ hn hc he hb ih =>
    obtain ⟨h1, h2, h3⟩ := ih
    exact ⟨Factor.wellFormed hb h1 hc he hn, (Factor.isNonTerminal_iff hb).2 (.inl h2),
      fun w => (Factor.sentence_iff hb h1 hc he hn h2).trans (h3 w)⟩
  | unfold x y u v _ hy ih =>
    obtain ⟨h1, h2, h3⟩ := ih
    exact ⟨Unfold.wellFormed hy h1, (Unfold.isNonTerminal_iff hy).2 h2,
      fun w => (Unfold.sentence_iff hy h1 h2).trans (h3 w)⟩
  | fold x b u c v _ hn hc he hp ih =>
    obtain ⟨h1, h2, h3⟩ := ih
    exact ⟨Fold.wellFormed h1 hc he hn, Fold.isNonTerminal_iff.2 (.inl h2),
      fun w => (Fold.sentence_iff hc he hn hp h2).trans (h3 w)⟩
  | drop ys _ hys hu ih =>
    obtain ⟨h1, h2, h3⟩ := ih
    exact ⟨Drop.wellFormed h1, Drop.isNonTerminal_iff.2 ⟨h2, hys⟩,
      fun w => (Drop.sentence_iff hu h2 hys).trans (h3 w)⟩

end Verif
