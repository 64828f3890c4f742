import Verif.Proof.Plug
import Verif.Proof.Lists
import Verif.Spec.Tie

/-!
# Nesting in brackets
-/

set_option linter.unusedSectionVars false

namespace Verif

open Spec

variable {L T : Type} [DecidableEq T] {eps b op a cl : T} {ps : List (Production T)} {S : List T → Prop}

namespace Spec.Nested

theorem append {u u' w w' : List T} (h : Nested b op cl S u w) (h' : Nested b op cl S u' w') :
    Nested b op cl S (u ++ u') (w ++ w') := by
  induction h with
  | nil => exact h'
  | keep c u w hc _ ih => exact .keep c _ _ hc ih
  | put v' v u w hv h1 _ _ ih =>
    have := Nested.put v' v _ _ hv h1 ih
    simpa using this

theorem split {u u' w : List T} (h : Nested b op cl S (u ++ u') w) :
    ∃ v v', w = v ++ v' ∧ Nested b op cl S u v ∧ Nested b op cl S u' v' := by
  induction u generalizing w with
  | nil => exact ⟨[], w, rfl, .nil, h⟩
  | cons c u ih =>
    cases h with
    | keep _ _ w hc h =>
      obtain ⟨v, v', rfl, h1, h2⟩ := ih h
      exact ⟨c :: v, v', rfl, .keep c _ _ hc h1, h2⟩
    | put x' x _ w hx h0 h =>
      obtain ⟨v, v', rfl, h1, h2⟩ := ih h
      exact ⟨op :: x ++ cl :: v, v', by simp, .put x' x _ _ hx h0 h1, h2⟩

theorem single {c : T} {w : List T} (hc : c ≠ b) (h : Nested b op cl S [c] w) : w = [c] := by
  cases h with
  | keep _ _ w _ h =>
    cases h
    rfl
  | put => exact absurd rfl hc

end Spec.Nested

namespace Spec.Ties

theorem mem_iff {r : Production T} : r ∈ tied b op a cl ps ↔ r ∈ ps ∨ r = ⟨b, [op, a, cl]⟩ := by
  simp [tied]

theorem sub {r : Production T} (hr : r ∈ ps) : r ∈ tied b op a cl ps := mem_iff.2 (.inl hr)

theorem nt_iff {x : T} : IsNonTerminal (tied b op a cl ps) x ↔ x = b ∨ IsNonTerminal ps x := by
  unfold IsNonTerminal
  constructor
  · rintro ⟨r, hr, rfl⟩
    rcases mem_iff.1 hr with h | rfl
    · exact .inr ⟨r, h, rfl⟩
    · exact .inl rfl
  · rintro (rfl | ⟨r, h, rfl⟩)
    · exact ⟨_, mem_iff.2 (.inr rfl), rfl⟩
    · exact ⟨r, sub h, rfl⟩

theorem monoL {l m : List T} (h : Derives eps ps l m) : Derives eps (tied b op a cl ps) l m :=
  Derives.mono (fun _ hr => sub hr) h

variable (ht : Ties eps b op cl ps)
include ht

theorem old_ne {p : Production T} (hp : p ∈ ps) : p.input ≠ b := fun e => ht.terminal ⟨p, hp, e⟩

theorem b_only {r : Production T} (hr : r ∈ tied b op a cl ps) (e : r.input = b) : r = ⟨b, [op, a, cl]⟩ :=
  (mem_iff.1 hr).resolve_left fun h => ht.old_ne h e

theorem old_of {r : Production T} (hr : r ∈ tied b op a cl ps) (e : r.input ≠ b) : r ∈ ps :=
  (mem_iff.1 hr).resolve_right fun h => e (h ▸ rfl)

theorem op_terminal : ¬ IsNonTerminal (tied b op a cl ps) op := fun h =>
  (nt_iff.1 h).elim (fun e => ht.differ.1 e.symm) fun ⟨p, hp, e⟩ => (ht.new_op.2 p hp).1 e

theorem cl_terminal : ¬ IsNonTerminal (tied b op a cl ps) cl := fun h =>
  (nt_iff.1 h).elim (fun e => ht.differ.2.1 e.symm) fun ⟨p, hp, e⟩ => (ht.new_cl.2 p hp).1 e

theorem rhs_b : rhs eps ⟨b, [op, a, cl]⟩ = [op, a, cl] := rhs_of_mem (x := op) (by simp) ht.new_op.1

theorem ne (ha : IsNonTerminal ps a) : a ≠ b ∧ a ≠ op ∧ a ≠ cl := by
  obtain ⟨p, hp, rfl⟩ := ha
  exact ⟨ht.old_ne hp, (ht.new_op.2 p hp).1, (ht.new_cl.2 p hp).1⟩

theorem wellFormed (ha : IsNonTerminal ps a) (h1 : WellFormed eps ps) : WellFormed eps (tied b op a cl ps) := by
  intro r hr
  rcases mem_iff.1 hr with hr | rfl
  · exact h1 r hr
  · refine ⟨ht.ne_eps, by simp, fun h => ?_⟩
    obtain ⟨p, hp, ea⟩ := ha
    simp only [List.mem_cons, List.not_mem_nil, or_false] at h
    rcases h with h | rfl | h
    · exact absurd h.symm ht.new_op.1
    · exact absurd ea (h1 p hp).1
    · exact absurd h.symm ht.new_cl.1

/-- A derivation is one of the old grammar with the `b`s replaced. -/
theorem derives {l m : List T} (h : Derives eps (tied b op a cl ps) l m) :
    ∃ m', Derives eps ps l m' ∧ Replaced b (fun v => Derives eps (tied b op a cl ps) [b] v) m' m := by
  have key : ∀ {y c : List T}, Derives eps (tied b op a cl ps) y c → ∀ m', Derives eps ps l m' →
      Replaced b (fun v => Derives eps (tied b op a cl ps) [b] v) m' y →
      ∃ m', Derives eps ps l m' ∧ Replaced b (fun v => Derives eps (tied b op a cl ps) [b] v) m' c := by
    intro y c hd
    induction hd with
    | refl y => exact fun m' h1 h3 => ⟨m', h1, h3⟩
    | step hs _ ih =>
      intro m' h1 h3
      cases hs with
      | mk u v p hp =>
        rcases Replaced.split h3 rfl with ⟨m1, m2, rfl, hA, k1, k2⟩ |
            ⟨m1, m2, u1, u2, v1, v2, rfl, rfl, rfl, hs, k1, k2⟩
        · have hp' : p ∈ ps := ht.old_of hp hA
          refine ih (m1 ++ rhs eps p ++ m2) (h1.trans (.of_step (Step.mk m1 m2 p hp'))) ?_
          exact (k1.append (Replaced.refl (.refl _) _)).append k2
        · refine ih (m1 ++ b :: m2) h1 ?_
          have hs' : Derives eps (tied b op a cl ps) [b] (u2 ++ rhs eps p ++ v1) :=
            Derives.trans hs (.of_step (Step.mk u2 v1 p hp))
          have := k1.append (Replaced.put (S := fun v => Derives eps (tied b op a cl ps) [b] v) _ _ _ hs' k2)
          simpa [List.append_assoc] using this
  exact key h l (.refl l) (Replaced.refl (.refl _) l)

theorem b_head {c : T} {v : List T} (h : Derives eps (tied b op a cl ps) [b] (c :: v)) : c = b ∨ c = op := by
  cases h with
  | refl => exact .inl rfl
  | step hs hd =>
    obtain ⟨q, hq, hqb, rfl⟩ := Step.single hs
    rw [ht.b_only hq hqb, ht.rhs_b] at hd
    obtain ⟨c1, c2, e, k1, -⟩ := Derives.cons_split hd
    rw [Derives.terminal_eq ht.op_terminal k1] at e
    simp only [List.cons_append, List.cons.injEq] at e
    exact .inr e.1

theorem not_null : ¬ Derives eps (tied b op a cl ps) [b] [] := by
  intro h
  cases h with
  | step hs hd =>
    obtain ⟨q, hq, hqb, rfl⟩ := Step.single hs
    rw [ht.b_only hq hqb, ht.rhs_b] at hd
    obtain ⟨c1, c2, e, k1, -⟩ := Derives.cons_split hd
    rw [Derives.terminal_eq ht.op_terminal k1] at e
    simp at e

theorem nullable {x : T} : Nullable eps (tied b op a cl ps) x ↔ Nullable eps ps x := by
  refine ⟨fun h => ?_, monoL⟩
  obtain ⟨m', h1, h3⟩ := ht.derives h
  rw [h3.nil_inv ht.not_null] at h1
  exact h1

theorem canStart {x : T} (hk : IsNonTerminal ps x ∨ ∃ p ∈ ps, x ∈ p.output) {c : T} :
    CanStart eps (tied b op a cl ps) x c ↔ (c ≠ b ∧ CanStart eps ps x c) ∨ (c = op ∧ CanStart eps ps x b) := by
  constructor
  · rintro ⟨⟨ho, hn⟩, he, v, hd⟩
    obtain ⟨m', h1, h3⟩ := ht.derives hd
    have hcb : c ≠ b := fun e => hn (nt_iff.2 (.inl e))
    have hout : ∀ y, y ∈ m' → ¬ IsNonTerminal ps y → ∃ p ∈ ps, y ∈ p.output := by
      intro y hy hny
      rcases mem_output_of_derives h1 hy with h | h
      · rw [List.mem_singleton.1 h] at hny ⊢
        exact hk.resolve_left hny
      · exact h
    rcases h3.head ht.not_null with ⟨m, rfl, -, -⟩ | ⟨m, v1, v2, rfl, hs, -, -⟩
    · have hn' : ¬ IsNonTerminal ps c := fun h => hn (nt_iff.2 (.inr h))
      exact .inl ⟨hcb, ⟨hout c (by simp) hn', hn'⟩, he, m, h1⟩
    · exact .inr ⟨(ht.b_head hs).resolve_left hcb, ⟨hout b (by simp) ht.terminal, ht.terminal⟩, ht.ne_eps, m, h1⟩
  · rintro (⟨hcb, ⟨⟨p, hp, ho⟩, hn⟩, he, v, hd⟩ | ⟨rfl, -, -, v, hd⟩)
    · exact ⟨⟨⟨p, sub hp, ho⟩, fun h => (nt_iff.1 h).elim hcb hn⟩, he, v, monoL hd⟩
    · refine ⟨⟨⟨_, mem_iff.2 (.inr rfl), by simp⟩, ht.op_terminal⟩, ht.new_op.1, [a, cl] ++ v, (monoL hd).trans ?_⟩
      have h1 := Derives.of_production (eps := eps)
        (mem_iff.2 (.inr rfl) : (⟨b, [c, a, cl]⟩ : Production T) ∈ tied b c a cl ps)
      rw [ht.rhs_b] at h1
      exact Derives.append (a := [b]) h1 (.refl _)

theorem strNullable {l : List T} : StrNullable eps (tied b op a cl ps) l ↔ StrNullable eps ps l := by
  unfold StrNullable
  exact forall_congr' fun y => forall_congr' fun hy => ht.nullable

theorem strFirst {p : Production T} (hp : p ∈ ps) {l : List T} (hl : ∀ y ∈ l, y ∈ p.output) {c : T} :
    StrFirst eps (tied b op a cl ps) l c ↔ (c ≠ b ∧ StrFirst eps ps l c) ∨ (c = op ∧ StrFirst eps ps l b) := by
  unfold StrFirst
  constructor
  · rintro ⟨u, y, v, rfl, h1, h2⟩
    have h1' := ht.strNullable.1 h1
    rcases (ht.canStart (.inr ⟨p, hp, hl y (by simp)⟩)).1 h2 with ⟨k1, k2⟩ | ⟨k1, k2⟩
    · exact .inl ⟨k1, u, y, v, rfl, h1', k2⟩
    · exact .inr ⟨k1, u, y, v, rfl, h1', k2⟩
  · rintro (⟨k1, u, y, v, rfl, h1, k2⟩ | ⟨k1, u, y, v, rfl, h1, k2⟩) <;>
      refine ⟨u, y, v, rfl, ht.strNullable.2 h1, (ht.canStart (.inr ⟨p, hp, hl y (by simp)⟩)).2 ?_⟩
    · exact .inl ⟨k1, k2⟩
    · exact .inr ⟨k1, k2⟩

/-- What follows a non-terminal. -/
theorem followRule (ha : IsNonTerminal ps a) {x : T} (hx : IsNonTerminal ps x) {c : T} :
    FollowRule eps (tied b op a cl ps) x c ↔
      (c ≠ b ∧ FollowRule eps ps x c) ∨ (c = op ∧ FollowRule eps ps x b) ∨ (c = cl ∧ Ends eps a ps x) := by
  obtain ⟨d1, d2, d3⟩ := ht.ne ha
  have hocc : ∀ {u t : List T} {x : T}, IsNonTerminal ps x → [op, a, cl] = u ++ x :: t → x = a ∧ t = [cl] := by
    intro u t x hx e
    obtain ⟨e1, e2, e3⟩ := ht.ne hx
    rcases occ_cons e with ⟨h, -, -⟩ | ⟨u', rfl, e4⟩
    · exact absurd h.symm e2
    · rcases occ_cons e4 with ⟨h, -, h'⟩ | ⟨u'', rfl, e5⟩
      · exact ⟨h.symm, h'⟩
      · exact absurd (occ_one e5).1.symm e3
  constructor
  · intro h
    induction h with
    | @first q u t x c hp hr _ ht' hc =>
      rcases mem_iff.1 hp with hq | rfl
      · have hsub : ∀ y ∈ u ++ x :: t, y ∈ q.output := fun y hy => rhs_subset (by rw [hr]; exact hy)
        rcases (ht.strFirst hq fun y hy => hsub y (by simp [hy])).1 hc with ⟨k1, k2⟩ | ⟨k1, k2⟩
        · exact .inl ⟨k1, .first hq hr hx ht' k2⟩
        · exact .inr (.inl ⟨k1, .first hq hr hx ht' k2⟩)
      · rw [ht.rhs_b] at hr
        obtain ⟨rfl, rfl⟩ := hocc hx hr
        exact .inr (.inr ⟨strFirst_terminal ht.cl_terminal hc, .self ha⟩)
    | @last q u t x c hp hr _ ht' _ ih =>
      rcases mem_iff.1 hp with hq | rfl
      · have hn := ht.strNullable.1 ht'
        rcases ih ⟨q, hq, rfl⟩ with ⟨k1, k2⟩ | ⟨k1, k2⟩ | ⟨k1, k2⟩
        · exact .inl ⟨k1, .last hq hr hx hn k2⟩
        · exact .inr (.inl ⟨k1, .last hq hr hx hn k2⟩)
        · exact .inr (.inr ⟨k1, .last hq hr hx hn k2⟩)
      · rw [ht.rhs_b] at hr
        obtain ⟨rfl, rfl⟩ := hocc hx hr
        exact absurd ht' (not_strNullable_terminal ht.cl_terminal)
  · have key : ∀ {y d : T}, FollowRule eps ps y d → (c = d ∧ c ≠ b) ∨ (d = b ∧ c = op) →
        FollowRule eps (tied b op a cl ps) y c := by
      intro y d h hcd
      induction h with
      | @first q u t x d hp hr hx ht' hc =>
        have hsub : ∀ y ∈ u ++ x :: t, y ∈ q.output := fun y hy => rhs_subset (by rw [hr]; exact hy)
        refine .first (sub hp) hr (nt_iff.2 (.inr hx)) ht'
          ((ht.strFirst hp fun y hy => hsub y (by simp [hy])).2 ?_)
        rcases hcd with ⟨rfl, k⟩ | ⟨rfl, k⟩
        · exact .inl ⟨k, hc⟩
        · exact .inr ⟨k, hc⟩
      | @last q u t x d hp hr hx ht' _ ih =>
        exact .last (sub hp) hr (nt_iff.2 (.inr hx)) (ht.strNullable.2 ht') (ih hcd)
    rintro (⟨k1, k2⟩ | ⟨k1, k2⟩ | ⟨rfl, k2⟩)
    · exact key k2 (.inl ⟨rfl, k1⟩)
    · exact key k2 (.inr ⟨rfl, k1⟩)
    · clear hx key
      induction k2 with
      | self _ =>
        refine .first (p := ⟨b, [op, a, c]⟩) (u := [op]) (t := [c]) (mem_iff.2 (.inr rfl)) ht.rhs_b
          (nt_iff.2 (.inr ha)) (by simpa using d3.symm) ?_
        exact terminal_starts ⟨⟨_, mem_iff.2 (.inr rfl), by simp⟩, ht.cl_terminal⟩ ht.new_cl.1
      | @last q u t x hp hr hx ht' _ ih =>
        exact .last (sub hp) hr (nt_iff.2 (.inr hx)) (ht.strNullable.2 ht') ih

/-- The lookaheads. -/
theorem lead (ha : IsNonTerminal ps a) {q : Production T} (hq : q ∈ ps) (c : T) :
    Transitions.Lead eps (tied b op a cl ps) q c ↔
      (c ≠ b ∧ Transitions.Lead eps ps q c) ∨ (c = op ∧ Transitions.Lead eps ps q b) ∨
        (c = cl ∧ LeadEnds eps a ps q) := by
  unfold Transitions.Lead LeadEnds
  rw [ht.followRule ha ⟨q, hq, rfl⟩]
  cases hr : rhs eps q with
  | nil => simp
  | cons x t =>
    have hx : x ∈ q.output := rhs_subset (eps := eps) (by rw [hr]; simp)
    have h1 := ht.canStart (a := a) (.inr ⟨q, hq, hx⟩) (c := c)
    have h2 := ht.nullable (a := a) (x := x)
    have h3 : Nullable eps ps x → _ := fun hn => ht.followRule ha (x := x) (c := c) (by
      by_contra hc
      have := Derives.terminal_eq hc hn
      simp at this)
    have e : ∀ P : T → List T → Prop, (∃ y s, x :: t = y :: s ∧ P y s) ↔ P x t := by
      intro P
      constructor
      · rintro ⟨y, s, e, h⟩
        obtain ⟨rfl, rfl⟩ := List.cons.inj e
        exact h
      · exact fun h => ⟨x, t, rfl, h⟩
    simp only [e, reduceCtorEq, false_and, false_or, h1, h2]
    by_cases hn : Nullable eps ps x
    · rw [h3 hn]
      simp only [hn, true_and]
      constructor
      · rintro ((⟨k1, k2⟩ | ⟨k1, k2⟩) | ⟨k1, k2⟩ | ⟨k1, k2⟩ | ⟨k1, k2⟩)
        · exact .inl ⟨k1, .inl k2⟩
        · exact .inr (.inl ⟨k1, .inl k2⟩)
        · exact .inl ⟨k1, .inr k2⟩
        · exact .inr (.inl ⟨k1, .inr k2⟩)
        · exact .inr (.inr ⟨k1, k2⟩)
      · rintro (⟨k1, k2 | k2⟩ | ⟨k1, k2 | k2⟩ | ⟨k1, k2⟩)
        · exact .inl (.inl ⟨k1, k2⟩)
        · exact .inr (.inl ⟨k1, k2⟩)
        · exact .inl (.inr ⟨k1, k2⟩)
        · exact .inr (.inr (.inl ⟨k1, k2⟩))
        · exact .inr (.inr (.inr ⟨k1, k2⟩))
    · simp only [hn, false_and, or_false, and_false]

/-- No left recursion comes in. -/
theorem notLeftRecursive : NotLeftRecursive eps (tied b op a cl ps) ↔ NotLeftRecursive eps ps := by
  constructor
  · rintro h x v ⟨m, hs, hd⟩
    obtain ⟨q, hq, rfl, rfl⟩ := Step.single hs
    exact h _ v ⟨_, Step.of_production (sub hq), monoL hd⟩
  · rintro k x v ⟨m, hs, hd⟩
    obtain ⟨q, hq, rfl, rfl⟩ := Step.single hs
    rcases mem_iff.1 hq with hq | rfl
    · obtain ⟨m', h1, h3⟩ := ht.derives hd
      rcases h3.head ht.not_null with ⟨m, rfl, -, -⟩ | ⟨m, v1, v2, rfl, hs', -, -⟩
      · exact k _ _ ⟨_, Step.of_production hq, h1⟩
      · rcases ht.b_head hs' with e | e
        · exact ht.old_ne hq e
        · exact (ht.new_op.2 q hq).1 e
    · rw [ht.rhs_b] at hd
      obtain ⟨c1, c2, e, k1, -⟩ := Derives.cons_split hd
      rw [Derives.terminal_eq ht.op_terminal k1] at e
      simp only [List.cons_append, List.cons.injEq] at e
      exact ht.differ.1 e.1

theorem noAdjacentRepeat (ha : IsNonTerminal ps a) : NoAdjacentRepeat (tied b op a cl ps) ↔
    NoAdjacentRepeat ps ∧ ∀ p ∈ ps, ∀ u v, p.output ≠ u ++ b :: b :: v := by
  obtain ⟨d1, d2, d3⟩ := ht.ne ha
  constructor
  · intro h
    exact ⟨fun p hp u x v e hn => h p (sub hp) u x v e (nt_iff.2 (.inr hn)),
      fun p hp u v e => h p (sub hp) u b v e (nt_iff.2 (.inl rfl))⟩
  · rintro ⟨h1, h2⟩ p hp u x v e hn
    rcases mem_iff.1 hp with hp' | rfl
    · rcases nt_iff.1 hn with rfl | hn
      · exact h2 p hp' u v e
      · exact h1 p hp' u x v e hn
    · rcases occ_cons e with ⟨h, -, e'⟩ | ⟨u', rfl, e1⟩
      · simp only [List.cons.injEq] at e'
        exact d2 (e'.1.symm.trans h.symm)
      · rcases occ_cons e1 with ⟨h, -, e'⟩ | ⟨u'', rfl, e2⟩
        · simp only [List.cons.injEq] at e'
          exact d3 (h.trans e'.1)
        · simpa using (occ_one e2).2.2

/-! ## The sentences -/

theorem filled_of {x : T} {w : List T} (h : Expands eps (tied b op a cl ps) x w) :
    ∃ u, Expands eps ps x u ∧ Nested b op cl (fun v => Expands eps ps a v) u w := by
  refine Expands.rec (eps := eps) (ps := tied b op a cl ps)
    (motive_1 := fun x w _ => ∃ u, Expands eps ps x u ∧ Nested b op cl (fun v => Expands eps ps a v) u w)
    (motive_2 := fun xs w _ => ∃ u, ExpandsAll eps ps xs u ∧ Nested b op cl (fun v => Expands eps ps a v) u w)
    ?_ ?_ ?_ ?_ h
  · intro x hx he
    exact ⟨[x], .leaf x (fun h => hx (nt_iff.2 (.inr h))) he, .keep x _ _ (fun e => hx (nt_iff.2 (.inl e))) .nil⟩
  · rintro q w hq - ⟨u, h1, h2⟩
    by_cases hqb : q.input = b
    · have e := ht.b_only hq hqb
      rw [e, ht.rhs_b] at h1
      rw [hqb]
      refine ⟨[b], .leaf b ht.terminal ht.ne_eps, ?_⟩
      have hop : ¬ IsNonTerminal ps op := fun ⟨p, hp, e⟩ => (ht.new_op.2 p hp).1 e
      have hcl : ¬ IsNonTerminal ps cl := fun ⟨p, hp, e⟩ => (ht.new_cl.2 p hp).1 e
      cases h1 with
      | cons _ _ u1 u2 k1 k2 =>
        cases k2 with
        | cons _ _ u' u3 k2 k3 =>
          rw [k1.terminal hop, (ExpandsAll.single.1 k3).terminal hcl] at h2
          obtain ⟨w1, w2, rfl, h3, h4⟩ := Nested.split (u := [op]) h2
          obtain ⟨w3, w4, rfl, h5, h6⟩ := Nested.split h4
          rw [h3.single ht.differ.1.symm, h6.single ht.differ.2.1.symm]
          have := Nested.put (b := b) (op := op) (cl := cl) (S := fun v => Expands eps ps a v) u' w3 [] [] k2 h5 .nil
          simpa using this
    · exact ⟨u, .node q u (ht.old_of hq hqb) h1, h2⟩
  · exact ⟨[], .nil, .nil⟩
  · rintro x xs w w' - - ⟨u, k1, k2⟩ ⟨u', k3, k4⟩
    exact ⟨u ++ u', .cons x xs u u' k1 k3, k2.append k4⟩

theorem derives_of {u w : List T} (h : Nested b op cl (fun v => Derives eps ps [a] v) u w) :
    Derives eps (tied b op a cl ps) u w := by
  induction h with
  | nil => exact .refl _
  | keep c u w _ _ ih => exact Derives.append (a := [c]) (.refl _) ih
  | put v' v u w hv _ _ ih1 ih2 =>
    have h1 := Derives.of_production (eps := eps)
      (mem_iff.2 (.inr rfl) : (⟨b, [op, a, cl]⟩ : Production T) ∈ tied b op a cl ps)
    rw [ht.rhs_b] at h1
    have h3 : Derives eps (tied b op a cl ps) ([a] ++ [cl]) (v ++ [cl]) := ((monoL hv).trans ih1).append (.refl [cl])
    have h2 : Derives eps (tied b op a cl ps) ([op] ++ ([a] ++ [cl])) ([op] ++ (v ++ [cl])) := (Derives.refl [op]).append h3
    have := Derives.append (a := [b]) (h1.trans h2) ih2
    simpa using this

/-- The sentences of the non-terminals. -/
theorem sentence_iff (ha : IsNonTerminal ps a) {x : T} (hx : IsNonTerminal ps x) {w : List T} :
    Sentence eps x (tied b op a cl ps) w ↔
      ∃ u, Sentence eps x ps u ∧ Nested b op cl (fun v => Sentence eps a ps v) u w := by
  have hS : (fun v => Sentence eps a ps v) = fun v => Expands eps ps a v := by
    funext v
    exact propext (sentence_iff_expands ha)
  constructor
  · intro h
    rw [sentence_iff_expands (nt_iff.2 (.inr hx))] at h
    rw [hS]
    obtain ⟨u, h1, h2⟩ := ht.filled_of h
    exact ⟨u, (sentence_iff_expands hx).2 h1, h2⟩
  · rintro ⟨u, h1, h2⟩
    have hS' : ∀ {u w}, Nested b op cl (fun v => Sentence eps a ps v) u w →
        Nested b op cl (fun v => Derives eps ps [a] v) u w := by
      intro u w h
      induction h with
      | nil => exact .nil
      | keep c u w hc _ ih => exact .keep c _ _ hc ih
      | put v' v u w hv _ _ ih1 ih2 => exact .put v' v u w hv.1 ih1 ih2
    refine ⟨(monoL h1.1).trans (ht.derives_of (hS' h2)), ?_⟩
    have h3 := h1.2
    clear h1
    induction h2 with
    | nil => simp
    | keep c u w hc _ ih =>
      intro d hd
      rcases List.mem_cons.1 hd with rfl | hd
      · obtain ⟨⟨⟨p, hp, ho⟩, hn⟩, he⟩ := h3 d (by simp)
        exact ⟨⟨⟨p, sub hp, ho⟩, fun h => (nt_iff.1 h).elim hc hn⟩, he⟩
      · exact ih (fun d hd => h3 d (by simp [hd])) d hd
    | put v' v u w hv _ _ ih1 ih2 =>
      intro d hd
      simp only [List.cons_append, List.mem_cons, List.mem_append] at hd
      have hm : (⟨b, [op, a, cl]⟩ : Production T) ∈ tied b op a cl ps := mem_iff.2 (.inr rfl)
      rcases hd with rfl | hd | rfl | hd
      · exact ⟨⟨⟨_, hm, by simp⟩, ht.op_terminal⟩, ht.new_op.1⟩
      · exact ih1 hv.2 d hd
      · exact ⟨⟨⟨_, hm, by simp⟩, ht.cl_terminal⟩, ht.new_cl.1⟩
      · exact ih2 (fun d hd => h3 d (by simp [hd])) d hd

end Spec.Ties

end Verif
