import Verif.Proof.Compose

/-!
# What follows the initial symbol of a grammar inside of another one
-/

set_option linter.unusedSectionVars false

namespace Verif

open Spec

variable {L T : Type} [DecidableEq T] {eps : T} {ps all : List (Production T)}

/-- `x` can stand at the end of what `a` derives. -/
inductive Ends (eps a : T) (ps : List (Production T)) : T → Prop where
  | self : IsNonTerminal ps a → Ends eps a ps a
  | last {p : Production T} {u t : List T} {x : T} : p ∈ ps → rhs eps p = u ++ x :: t → IsNonTerminal ps x →
      StrNullable eps ps t → Ends eps a ps p.input → Ends eps a ps x

/-- The production is selected by what follows `a`. -/
def LeadEnds (eps a : T) (ps : List (Production T)) (q : Production T) : Prop :=
  (rhs eps q = [] ∧ Ends eps a ps q.input) ∨ ∃ x t, rhs eps q = x :: t ∧ Nullable eps ps x ∧ Ends eps a ps x

/-- `ps` stands inside of `all`, which uses no non-terminal of `ps` but `a`, and there the symbols of `D` can follow
`a`. -/
structure Context (eps a : T) (D : T → Prop) (ps all : List (Production T)) : Prop extends Embeds ps all where
  uses : Embeds.Uses ps all a
  nt : IsNonTerminal ps a
  into : ∀ c, D c → FollowRule eps all a c
  first : ∀ r ∈ all, r ∉ ps → ∀ u t, rhs eps r = u ++ a :: t → t.head? ≠ some a → ∀ c, StrFirst eps all t c → D c
  last : ∀ r ∈ all, r ∉ ps → ∀ u t, rhs eps r = u ++ a :: t → StrNullable eps all t →
    ∀ c, FollowRule eps all r.input c → D c

namespace Context

variable {a : T} {D : T → Prop}

theorem followRule (C : Context eps a D ps all) {x c : T} (hx : IsNonTerminal ps x) :
    FollowRule eps all x c ↔ FollowRule eps ps x c ∨ (D c ∧ Ends eps a ps x) := by
  have E := C.toEmbeds
  constructor
  · intro h
    induction h with
    | @first q u t x c hp hr _ ht hc =>
      have hsub : ∀ y ∈ u ++ x :: t, y ∈ q.output := fun y hy => rhs_subset (by rw [hr]; exact hy)
      by_cases hq : q ∈ ps
      · exact .inl (.first hq hr hx ht ((E.strFirst hq fun y hy => hsub y (by simp [hy])).1 hc))
      · have := (C.uses q hp).resolve_left hq x (hsub x (by simp)) hx
        subst this
        exact .inr ⟨C.first q hp hq u t hr ht c hc, .self C.nt⟩
    | @last q u t x c hp hr _ ht hf ih =>
      have hsub : ∀ y ∈ u ++ x :: t, y ∈ q.output := fun y hy => rhs_subset (by rw [hr]; exact hy)
      by_cases hq : q ∈ ps
      · have ht' := (E.strNullable fun y hy => E.old_output hq (hsub y (by simp [hy]))).1 ht
        rcases ih ⟨q, hq, rfl⟩ with h | ⟨h1, h2⟩
        · exact .inl (.last hq hr hx ht' h)
        · exact .inr ⟨h1, .last hq hr hx ht' h2⟩
      · have := (C.uses q hp).resolve_left hq x (hsub x (by simp)) hx
        subst this
        exact .inr ⟨C.last q hp hq u t hr ht c hf, .self C.nt⟩
  · rintro (h | ⟨hD, h⟩)
    · clear hx
      induction h with
      | @first q u t x c hp hr hx ht hc =>
        have hsub : ∀ y ∈ u ++ x :: t, y ∈ q.output := fun y hy => rhs_subset (by rw [hr]; exact hy)
        exact .first (E.sub q hp) hr ((E.isNonTerminal (E.old_nt hx)).2 hx) ht
          ((E.strFirst hp fun y hy => hsub y (by simp [hy])).2 hc)
      | @last q u t x c hp hr hx ht _ ih =>
        have hsub : ∀ y ∈ u ++ x :: t, y ∈ q.output := fun y hy => rhs_subset (by rw [hr]; exact hy)
        exact .last (E.sub q hp) hr ((E.isNonTerminal (E.old_nt hx)).2 hx)
          ((E.strNullable fun y hy => E.old_output hp (hsub y (by simp [hy]))).2 ht) ih
    · clear hx
      induction h with
      | self _ => exact C.into c hD
      | @last q u t x hp hr hx ht _ ih =>
        have hsub : ∀ y ∈ u ++ x :: t, y ∈ q.output := fun y hy => rhs_subset (by rw [hr]; exact hy)
        exact .last (E.sub q hp) hr ((E.isNonTerminal (E.old_nt hx)).2 hx)
          ((E.strNullable fun y hy => E.old_output hp (hsub y (by simp [hy]))).2 ht) ih

theorem lead (C : Context eps a D ps all) {q : Production T} (hq : q ∈ ps) (c : T) :
    Transitions.Lead eps all q c ↔ Transitions.Lead eps ps q c ∨ (D c ∧ LeadEnds eps a ps q) := by
  have E := C.toEmbeds
  unfold Transitions.Lead LeadEnds
  rw [C.followRule ⟨q, hq, rfl⟩]
  cases hr : rhs eps q with
  | nil =>
    simp only [true_and, reduceCtorEq, false_and, exists_false, or_false]
  | cons x t =>
    have hx : x ∈ q.output := rhs_subset (eps := eps) (by rw [hr]; simp)
    have hxo := E.old_output hq hx
    have h1 := E.canStart (eps := eps) (c := c) hxo (.inr ⟨q, hq, hx⟩)
    have h2 := E.nullable (eps := eps) hxo
    have h3 : Nullable eps ps x → (FollowRule eps all x c ↔ FollowRule eps ps x c ∨ (D c ∧ Ends eps a ps x)) := by
      intro hn
      refine C.followRule ?_
      by_contra hc
      have := Derives.terminal_eq hc hn
      simp at this
    have e : ∀ P : T → List T → Prop, (∃ y s, x :: t = y :: s ∧ P y s) ↔ P x t := by
      intro P
      constructor
      · rintro ⟨y, s, e, h⟩
        obtain ⟨rfl, rfl⟩ := List.cons.inj e
        exact h
      · exact fun h => ⟨x, t, rfl, h⟩
    simp only [e, reduceCtorEq, false_and, false_or, h1, h2]
    constructor
    · rintro (k | ⟨kn, k⟩)
      · exact .inl (.inl k)
      · rcases (h3 kn).1 k with k | ⟨k1, k2⟩
        · exact .inl (.inr ⟨kn, k⟩)
        · exact .inr ⟨k1, kn, k2⟩
    · rintro ((k | ⟨kn, k⟩) | ⟨k1, kn, k2⟩)
      · exact .inl k
      · exact .inr ⟨kn, (h3 kn).2 (.inl k)⟩
      · exact .inr ⟨kn, (h3 kn).2 (.inr ⟨k1, k2⟩)⟩

/-- The end marker as a context. -/
theorem augment {start stop : T} (hf : Fresh eps ps start stop) (ha : IsNonTerminal ps a) :
    Context eps a (fun c => c = stop) ps (augment a start stop ps) := by
  have hne : start ≠ a := by
    obtain ⟨p, hp, rfl⟩ := ha
    exact (hf.start_unused p hp).1.symm
  have hr0 : rhs eps (⟨start, [a, stop]⟩ : Production T) = [a, stop] := rhs_of_mem (x := stop) (by simp) hf.stop_ne_eps
  have hstop : ¬ IsNonTerminal (Spec.augment a start stop ps) stop := hf.stop_terminal
  have hself : Embeds ps ps := ⟨fun _ h => h, fun _ h => .inl h⟩
  have hmem : ∀ r ∈ Spec.augment a start stop ps, r ∉ ps → r = ⟨start, [a, stop]⟩ :=
    fun r hr hn => (mem_augment.1 hr).resolve_right hn
  have hnstop : a ≠ stop := fun e => hstop (e ▸ by
    obtain ⟨p, hp, e'⟩ := ha
    exact ⟨p, mem_augment.2 (.inr hp), e'⟩)
  have hocc : ∀ u t : List T, rhs eps (⟨start, [a, stop]⟩ : Production T) = u ++ a :: t → u = [] ∧ t = [stop] := by
    intro u t hr
    rw [hr0] at hr
    rcases u with _ | ⟨y, _ | ⟨z, u⟩⟩
    · simp only [List.nil_append, List.cons.injEq, true_and] at hr
      exact ⟨rfl, hr.symm⟩
    · simp only [List.cons_append, List.nil_append, List.cons.injEq] at hr
      exact absurd hr.2.1.symm hnstop
    · simp at hr
  refine { toEmbeds := hself.augment hf, uses := ?_, nt := ha, into := ?_, first := ?_, last := ?_ }
  · exact Embeds.Uses.augment hself hf (fun r hr => .inl hr) fun _ => rfl
  · rintro c rfl
    refine .first (p := ⟨start, [a, c]⟩) (u := []) (t := [c]) (mem_augment.2 (.inl rfl)) hr0 ?_ ?_ ?_
    · obtain ⟨p, hp, e⟩ := ha
      exact ⟨p, mem_augment.2 (.inr hp), e⟩
    · simpa using hnstop.symm
    · exact ⟨[], c, [], rfl, strNullable_nil, ⟨⟨⟨start, [a, c]⟩, mem_augment.2 (.inl rfl), by simp⟩, hstop⟩,
        hf.stop_ne_eps, [], .refl _⟩
  · intro r hr hn u t he _ c hc
    rw [hmem r hr hn] at he
    obtain ⟨-, rfl⟩ := hocc u t he
    obtain ⟨w, y, v, e, hw, hy⟩ := hc
    rcases w with _ | ⟨z, w⟩
    · simp only [List.nil_append, List.cons.injEq] at e
      obtain ⟨rfl, -⟩ := e
      obtain ⟨_, _, v', hd⟩ := hy
      have := Derives.terminal_eq hstop hd
      simp only [List.cons.injEq] at this
      exact this.1
    · simp at e
  · intro r hr hn u t he ht c _
    rw [hmem r hr hn] at he
    obtain ⟨-, rfl⟩ := hocc u t he
    have := Derives.terminal_eq hstop (ht stop (by simp))
    simp at this

/-- A symbol that does not occur in the grammar selects nothing. -/
theorem not_lead {q : Production T} {c : T} (hc : ∀ p ∈ ps, c ∉ p.output) : ¬ Transitions.Lead eps ps q c := by
  intro h
  obtain ⟨⟨p, hp, ho⟩, -⟩ := lead_isTerminal h
  exact hc p hp ho

end Context

end Verif
