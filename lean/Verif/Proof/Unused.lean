import Verif.Spec.Unused
import Verif.Proof.Congr
import Verif.Proof.Transitions

/-! # Unused productions change neither FIRST, FOLLOW nor the lookahead of the others -/

set_option linter.unusedSectionVars false

namespace Verif.Spec

variable {T : Type} [DecidableEq T]

section
variable {eps init : T} {ps us : List (Production T)}

theorem rhs_subset {q : Production T} {y : T} (h : y ∈ rhs eps q) : y ∈ q.output := by
  unfold rhs at h
  split at h
  · simp at h
  · exact h

theorem Unused.derives (hu : Unused init ps us) {l m : List T} (h : Derives eps (ps ++ us) l m)
    (hl : ∀ y ∈ l, ∀ u ∈ us, u.input ≠ y) :
    Derives eps ps l m ∧ ∀ y ∈ m, ∀ u ∈ us, u.input ≠ y := by
  induction h with
  | refl a => exact ⟨.refl a, hl⟩
  | step hs _ ih =>
    cases hs with
    | mk a b q hq =>
      have hqp : q ∈ ps := by
        rcases List.mem_append.1 hq with h | h
        · exact h
        · exact absurd rfl (hl q.input (by simp) q h)
      have := ih (by
        intro y hy u hu'
        simp only [List.append_assoc, List.mem_append] at hy
        rcases hy with hy | hy | hy
        · exact hl y (by simp [hy]) u hu'
        · intro e
          subst e
          exact ((hu u hu').2.1 q hqp).2 (rhs_subset hy)
        · exact hl y (by simp [hy]) u hu')
      exact ⟨.step (.mk a b q hqp) this.1, this.2⟩

theorem mem_output_of_derives {l m : List T} (h : Derives eps ps l m) {y : T} (hy : y ∈ m) :
    y ∈ l ∨ ∃ q ∈ ps, y ∈ q.output := by
  induction h with
  | refl a => exact .inl hy
  | step hs _ ih =>
    cases hs with
    | mk a b q hq =>
      rcases ih hy with h | h
      · simp only [List.append_assoc, List.mem_append] at h
        rcases h with h | h | h
        · exact .inl (by simp [h])
        · exact .inr ⟨q, hq, rhs_subset h⟩
        · exact .inl (by simp [h])
      · exact .inr h

theorem Unused.isNonTerminal (_ : Unused init ps us) {x : T} (hx : ∀ u ∈ us, u.input ≠ x) :
    IsNonTerminal ps x ↔ IsNonTerminal (ps ++ us) x := by
  unfold IsNonTerminal
  simp only [List.mem_append]
  constructor
  · rintro ⟨q, hq, e⟩; exact ⟨q, .inl hq, e⟩
  · rintro ⟨q, hq | hq, e⟩
    · exact ⟨q, hq, e⟩
    · exact absurd e (hx q hq)

theorem Unused.old (hu : Unused init ps us) {q : Production T} (hq : q ∈ ps) {y : T}
    (hy : y ∈ q.output) : ∀ u ∈ us, u.input ≠ y := by
  rintro u h rfl
  exact ((hu u h).2.1 q hq).2 hy

theorem Unused.nullable (hu : Unused init ps us) {x : T} (hx : ∀ u ∈ us, u.input ≠ x) :
    Nullable eps ps x ↔ Nullable eps (ps ++ us) x :=
  ⟨fun h => Derives.mono (fun _ h => by simp [h]) h,
    fun h => (hu.derives h (by simpa using hx)).1⟩

theorem Unused.canStart (hu : Unused init ps us) {q : Production T} (hq : q ∈ ps) {x a : T}
    (hy : x ∈ q.output) : CanStart eps ps x a ↔ CanStart eps (ps ++ us) x a := by
  have hx := hu.old hq hy
  constructor
  · rintro ⟨⟨⟨r, hr, ha⟩, hn⟩, he, v, hd⟩
    refine ⟨⟨⟨r, by simp [hr], ha⟩, ?_⟩, he, v, Derives.mono (fun _ h => by simp [h]) hd⟩
    rwa [← hu.isNonTerminal (hu.old hr ha)]
  · rintro ⟨⟨_, hn⟩, he, v, hd⟩
    obtain ⟨hd', ho⟩ := hu.derives hd (by simpa using hx)
    refine ⟨⟨?_, ?_⟩, he, v, hd'⟩
    · rcases mem_output_of_derives hd' (y := a) (by simp) with h | h
      · rw [List.mem_singleton.1 h]; exact ⟨q, hq, hy⟩
      · exact h
    · rwa [hu.isNonTerminal (ho a (by simp))]

theorem Unused.strNullable (hu : Unused init ps us) {l : List T}
    (hl : ∀ y ∈ l, ∀ u ∈ us, u.input ≠ y) : StrNullable eps ps l ↔ StrNullable eps (ps ++ us) l := by
  unfold StrNullable
  exact forall_congr' fun y => forall_congr' fun hy => hu.nullable (hl y hy)

theorem Unused.strFirst (hu : Unused init ps us) {q : Production T} (hq : q ∈ ps) {l : List T} {a : T}
    (hl : ∀ y ∈ l, y ∈ q.output) : StrFirst eps ps l a ↔ StrFirst eps (ps ++ us) l a := by
  unfold StrFirst
  constructor
  · rintro ⟨u, y, v, rfl, h1, h2⟩
    exact ⟨u, y, v, rfl, (hu.strNullable fun z hz => hu.old hq (hl z (by simp [hz]))).1 h1,
      (hu.canStart hq (hl y (by simp))).1 h2⟩
  · rintro ⟨u, y, v, rfl, h1, h2⟩
    exact ⟨u, y, v, rfl, (hu.strNullable fun z hz => hu.old hq (hl z (by simp [hz]))).2 h1,
      (hu.canStart hq (hl y (by simp))).2 h2⟩

theorem output_of_rhs {q : Production T} {u t : List T} {x : T} (h : rhs eps q = u ++ x :: t) :
    q.output = u ++ x :: t := by
  unfold rhs at h
  split at h
  · simp at h
  · exact h

theorem FollowRule.occurs {x a : T} (h : FollowRule eps ps x a) : ∃ q ∈ ps, x ∈ q.output := by
  cases h with
  | first hp hr _ _ _ => exact ⟨_, hp, rhs_subset (by rw [hr]; simp)⟩
  | last hp hr _ _ _ => exact ⟨_, hp, rhs_subset (by rw [hr]; simp)⟩

theorem Unused.followRule (hu : Unused init ps us) {x a : T} (hx : IsNonTerminal ps x) :
    FollowRule eps ps x a ↔ FollowRule eps (ps ++ us) x a := by
  constructor
  · intro h
    clear hx
    induction h with
    | @first q u t x a hp hr hx ht ha =>
      have hsub : ∀ y ∈ u ++ x :: t, y ∈ q.output := fun y hy => rhs_subset (by rw [hr]; exact hy)
      exact .first (by simp [hp]) hr ((hu.isNonTerminal (hu.old hp (hsub x (by simp)))).1 hx) ht
        ((hu.strFirst hp fun y hy => hsub y (by simp [hy])).1 ha)
    | @last q u t x a hp hr hx ht _ ih =>
      have hsub : ∀ y ∈ u ++ x :: t, y ∈ q.output := fun y hy => rhs_subset (by rw [hr]; exact hy)
      exact .last (by simp [hp]) hr ((hu.isNonTerminal (hu.old hp (hsub x (by simp)))).1 hx)
        ((hu.strNullable fun y hy => hu.old hp (hsub y (by simp [hy]))).1 ht) ih
  · intro h
    induction h with
    | @first q u t x a hp hr _ ht ha =>
      have hsub : ∀ y ∈ u ++ x :: t, y ∈ q.output := fun y hy => rhs_subset (by rw [hr]; exact hy)
      rcases List.mem_append.1 hp with hp | hp
      · exact .first hp hr hx ht ((hu.strFirst hp fun y hy => hsub y (by simp [hy])).2 ha)
      · obtain ⟨rfl, -⟩ := (hu q hp).2.2 u x t (output_of_rhs hr) hx
        obtain ⟨v, y, w, e, -, -⟩ := ha
        simp at e
    | @last q u t x a hp hr _ ht hfol ih =>
      have hsub : ∀ y ∈ u ++ x :: t, y ∈ q.output := fun y hy => rhs_subset (by rw [hr]; exact hy)
      rcases List.mem_append.1 hp with hp | hp
      · exact .last hp hr hx ((hu.strNullable fun y hy => hu.old hp (hsub y (by simp [hy]))).2 ht)
          (ih ⟨q, hp, rfl⟩)
      · obtain ⟨rfl, hno⟩ := (hu q hp).2.2 u x t (output_of_rhs hr) hx
        obtain ⟨r, hr', hm⟩ := FollowRule.occurs hfol
        rcases List.mem_append.1 hr' with h | h
        · exact absurd hm ((hu q hp).2.1 r h).2
        · exact absurd hm (hno r h)

theorem FollowRule.isNonTerminal' {x a : T} (h : FollowRule eps ps x a) : IsNonTerminal ps x := by
  cases h <;> assumption

theorem lead_isTerminal {q : Production T} {a : T} (h : Transitions.Lead eps ps q a) :
    IsTerminal ps a := by
  have hf : ∀ {x a}, FollowRule eps ps x a → IsTerminal ps a := by
    intro x a h
    induction h with
    | first _ _ _ _ ha =>
      obtain ⟨_, _, _, _, _, hc⟩ := ha
      exact hc.1
    | last _ _ _ _ _ ih => exact ih
  rcases h with ⟨_, h⟩ | ⟨_, _, _, h | ⟨_, h⟩⟩
  · exact hf h
  · exact h.1
  · exact hf h

theorem Unused.lead (hu : Unused init ps us) {q : Production T} (hq : q ∈ ps) (a : T) :
    Transitions.Lead eps ps q a ↔ Transitions.Lead eps (ps ++ us) q a := by
  unfold Transitions.Lead
  refine or_congr (and_congr_right fun _ => hu.followRule ⟨q, hq, rfl⟩) ?_
  refine exists_congr fun x => exists_congr fun t => and_congr_right fun hr => ?_
  have hx : x ∈ q.output := rhs_subset (eps := eps) (by rw [hr]; simp)
  refine or_congr (hu.canStart hq hx) ?_
  rw [hu.nullable (hu.old hq hx)]
  refine and_congr_right fun _ => ⟨fun h => ?_, fun h => ?_⟩
  · exact (hu.followRule (FollowRule.isNonTerminal' h)).1 h
  · exact (hu.followRule ((hu.isNonTerminal (hu.old hq hx)).2 (FollowRule.isNonTerminal' h))).2 h

end

end Verif.Spec
