import Verif.Spec.Derivation

/-! # Derivations: congruence, splitting, and the two closure principles for FIRST and FOLLOW -/

set_option linter.unusedSectionVars false

namespace Verif.Spec

variable {T : Type} [DecidableEq T] {eps : T} {ps : List (Production T)}

theorem Derives.trans {a b c : List T} (h₁ : Derives eps ps a b) (h₂ : Derives eps ps b c) :
    Derives eps ps a c := by
  induction h₁ with
  | refl => exact h₂
  | step s _ ih => exact .step s (ih h₂)

theorem Step.context {a b : List T} (u v : List T) (h : Step eps ps a b) :
    Step eps ps (u ++ a ++ v) (u ++ b ++ v) := by
  cases h with
  | mk u' v' p hp =>
    have := Step.mk (eps := eps) (u ++ u') (v' ++ v) p hp
    simpa [List.append_assoc] using this

theorem Derives.context {a b : List T} (u v : List T) (h : Derives eps ps a b) :
    Derives eps ps (u ++ a ++ v) (u ++ b ++ v) := by
  induction h with
  | refl => exact .refl _
  | step s _ ih => exact .step (s.context u v) ih

theorem Derives.append {a a' b b' : List T} (h₁ : Derives eps ps a a') (h₂ : Derives eps ps b b') :
    Derives eps ps (a ++ b) (a' ++ b') := by
  have e₁ := h₁.context [] b
  have e₂ := h₂.context a' []
  simp only [List.nil_append, List.append_nil] at e₁ e₂
  exact e₁.trans e₂

theorem Derives.of_step {a b : List T} (h : Step eps ps a b) : Derives eps ps a b :=
  .step h (.refl _)

theorem Step.of_production {p : Production T} (hp : p ∈ ps) : Step eps ps [p.input] (rhs eps p) := by
  simpa using Step.mk (eps := eps) [] [] p hp

theorem Derives.of_production {p : Production T} (hp : p ∈ ps) :
    Derives eps ps [p.input] (rhs eps p) := .of_step (.of_production hp)

theorem Step.append_split {a b c : List T} (h : Step eps ps (a ++ b) c) :
    (∃ a', Step eps ps a a' ∧ c = a' ++ b) ∨ (∃ b', Step eps ps b b' ∧ c = a ++ b') := by
  generalize hab : a ++ b = ab at h
  cases h with
  | mk u v p hp =>
    rw [List.append_eq_append_iff] at hab
    rcases hab with ⟨w, rfl, rfl⟩ | ⟨w, rfl, hw⟩
    · right
      exact ⟨_, Step.mk w v p hp, by simp⟩
    · cases w with
      | nil =>
        simp only [List.nil_append] at hw
        subst hw
        right
        refine ⟨_, Step.mk [] v p hp, by simp⟩
      | cons x w =>
        simp only [List.cons_append, List.cons.injEq] at hw
        obtain ⟨rfl, rfl⟩ := hw
        left
        exact ⟨_, Step.mk u w p hp, by simp⟩

theorem Derives.append_split {a b c : List T} (h : Derives eps ps (a ++ b) c) :
    ∃ c₁ c₂, c = c₁ ++ c₂ ∧ Derives eps ps a c₁ ∧ Derives eps ps b c₂ := by
  generalize hab : a ++ b = ab at h
  induction h generalizing a b with
  | refl => exact ⟨a, b, hab.symm, .refl _, .refl _⟩
  | step s _ ih =>
    subst hab
    rcases s.append_split with ⟨a', sa, rfl⟩ | ⟨b', sb, rfl⟩
    · obtain ⟨c₁, c₂, rfl, h₁, h₂⟩ := ih rfl
      exact ⟨c₁, c₂, rfl, .step sa h₁, h₂⟩
    · obtain ⟨c₁, c₂, rfl, h₁, h₂⟩ := ih rfl
      exact ⟨c₁, c₂, rfl, h₁, .step sb h₂⟩

theorem Derives.cons_split {x : T} {b c : List T} (h : Derives eps ps (x :: b) c) :
    ∃ c₁ c₂, c = c₁ ++ c₂ ∧ Derives eps ps [x] c₁ ∧ Derives eps ps b c₂ :=
  Derives.append_split (a := [x]) h

theorem not_step_nil {c : List T} : ¬ Step eps ps [] c := by
  intro h
  generalize hn : ([] : List T) = n at h
  cases h with
  | mk u v p hp => cases u <;> simp at hn

theorem Derives.nil_eq {c : List T} (h : Derives eps ps [] c) : c = [] := by
  cases h with
  | refl => rfl
  | step s _ => exact absurd s not_step_nil

theorem not_step_terminal {x : T} (hx : ¬ IsNonTerminal ps x) {c : List T} :
    ¬ Step eps ps [x] c := by
  intro h
  generalize hn : [x] = n at h
  cases h with
  | mk u v p hp =>
    cases u with
    | nil => simp at hn; exact hx ⟨p, hp, hn.1.symm⟩
    | cons y u => cases u <;> simp at hn

theorem Derives.terminal_eq {x : T} (hx : ¬ IsNonTerminal ps x) {c : List T}
    (h : Derives eps ps [x] c) : c = [x] := by
  cases h with
  | refl => rfl
  | step s _ => exact absurd s (not_step_terminal hx)

/-- Every form derived from a single symbol in at least one step goes through a production. -/
theorem Step.single {x : T} {c : List T} (h : Step eps ps [x] c) :
    ∃ p ∈ ps, p.input = x ∧ c = rhs eps p := by
  generalize hn : [x] = n at h
  cases h with
  | mk u v p hp =>
    cases u with
    | nil =>
      simp only [List.nil_append, List.cons.injEq] at hn
      obtain ⟨rfl, rfl⟩ := hn
      exact ⟨p, hp, rfl, by simp⟩
    | cons y u => cases u <;> simp at hn

/-! ## Nullable strings, first symbols of strings -/

/-- Every symbol of the string is nullable. -/
def StrNullable (eps : T) (ps : List (Production T)) (l : List T) : Prop :=
  ∀ x ∈ l, Nullable eps ps x

/-- After nullable symbols, the string has a symbol that can start with `a`. -/
def StrFirst (eps : T) (ps : List (Production T)) (l : List T) (a : T) : Prop :=
  ∃ w y v, l = w ++ y :: v ∧ StrNullable eps ps w ∧ CanStart eps ps y a

theorem strNullable_nil : StrNullable eps ps [] := by intro x hx; simp at hx

theorem strNullable_cons {x : T} {l : List T} :
    StrNullable eps ps (x :: l) ↔ Nullable eps ps x ∧ StrNullable eps ps l := by
  simp [StrNullable]

theorem strNullable_append {a b : List T} :
    StrNullable eps ps (a ++ b) ↔ StrNullable eps ps a ∧ StrNullable eps ps b := by
  simp [StrNullable, or_imp, forall_and]

theorem StrNullable.derives {l : List T} (h : StrNullable eps ps l) : Derives eps ps l [] := by
  induction l with
  | nil => exact .refl _
  | cons x l ih =>
    rw [strNullable_cons] at h
    exact Derives.append (a := [x]) (a' := []) h.1 (ih h.2)

theorem derives_nil_iff {l : List T} : Derives eps ps l [] ↔ StrNullable eps ps l := by
  constructor
  · intro h
    induction l with
    | nil => exact strNullable_nil
    | cons x l ih =>
      obtain ⟨c₁, c₂, hc, h₁, h₂⟩ := h.cons_split
      have hc' := hc.symm
      rw [List.append_eq_nil_iff] at hc'
      obtain ⟨rfl, rfl⟩ := hc'
      exact strNullable_cons.2 ⟨h₁, ih h₂⟩
  · exact StrNullable.derives

theorem not_strFirst_nil {a : T} : ¬ StrFirst eps ps [] a := by
  rintro ⟨w, y, v, h, _⟩
  cases w <;> simp at h

theorem strFirst_cons {x : T} {l : List T} {a : T} :
    StrFirst eps ps (x :: l) a ↔
      CanStart eps ps x a ∨ (Nullable eps ps x ∧ StrFirst eps ps l a) := by
  constructor
  · rintro ⟨w, y, v, h, hw, hy⟩
    cases w with
    | nil => simp at h; obtain ⟨rfl, rfl⟩ := h; exact .inl hy
    | cons z w =>
      simp at h
      obtain ⟨rfl, rfl⟩ := h
      rw [strNullable_cons] at hw
      exact .inr ⟨hw.1, w, y, v, rfl, hw.2, hy⟩
  · rintro (h | ⟨hn, w, y, v, rfl, hw, hy⟩)
    · exact ⟨[], x, l, rfl, strNullable_nil, h⟩
    · exact ⟨x :: w, y, v, rfl, strNullable_cons.2 ⟨hn, hw⟩, hy⟩

theorem strFirst_append {b c : List T} {a : T} :
    StrFirst eps ps (b ++ c) a ↔
      StrFirst eps ps b a ∨ (StrNullable eps ps b ∧ StrFirst eps ps c a) := by
  induction b with
  | nil => simp [not_strFirst_nil, strNullable_nil]
  | cons x b ih =>
    rw [List.cons_append, strFirst_cons, strFirst_cons, ih, strNullable_cons]
    constructor
    · rintro (h | ⟨h, h' | ⟨h', h''⟩⟩)
      · exact .inl (.inl h)
      · exact .inl (.inr ⟨h, h'⟩)
      · exact .inr ⟨⟨h, h'⟩, h''⟩
    · rintro ((h | ⟨h, h'⟩) | ⟨⟨h, h'⟩, h''⟩)
      · exact .inl h
      · exact .inr ⟨h, .inl h'⟩
      · exact .inr ⟨h, .inr ⟨h', h''⟩⟩

theorem StrFirst.isTerminal {l : List T} {a : T} (h : StrFirst eps ps l a) :
    IsTerminal ps a ∧ a ≠ eps := by
  obtain ⟨_, _, _, _, _, h⟩ := h
  exact ⟨h.1, h.2.1⟩

theorem CanStart.self {a : T} (ha : IsTerminal ps a) (hne : a ≠ eps) : CanStart eps ps a a :=
  ⟨ha, hne, [], .refl _⟩

theorem StrFirst.derives {l : List T} {a : T} (h : StrFirst eps ps l a) :
    ∃ v, Derives eps ps l (a :: v) := by
  obtain ⟨w, y, v, rfl, hw, _, _, v', hy⟩ := h
  refine ⟨v' ++ v, ?_⟩
  have := Derives.append hw.derives (Derives.append (a := [y]) hy (.refl v))
  simpa using this

theorem strFirst_of_derives {l : List T} {a : T} (ha : IsTerminal ps a) (hne : a ≠ eps) {v : List T}
    (h : Derives eps ps l (a :: v)) : StrFirst eps ps l a := by
  induction l generalizing v with
  | nil => exact absurd h.nil_eq (by simp)
  | cons x l ih =>
    obtain ⟨c₁, c₂, hc, h₁, h₂⟩ := h.cons_split
    rw [strFirst_cons]
    cases c₁ with
    | nil => simp at hc; subst hc; exact .inr ⟨h₁, ih h₂⟩
    | cons b c₁ =>
      simp at hc
      obtain ⟨rfl, rfl⟩ := hc
      exact .inl ⟨ha, hne, c₁, h₁⟩

/-- `StrFirst` is exactly "derives a form that begins with the terminal `a`". -/
theorem strFirst_iff {l : List T} {a : T} :
    StrFirst eps ps l a ↔ IsTerminal ps a ∧ a ≠ eps ∧ ∃ v, Derives eps ps l (a :: v) :=
  ⟨fun h => ⟨h.isTerminal.1, h.isTerminal.2, h.derives⟩,
   fun ⟨ha, hne, _, h⟩ => strFirst_of_derives ha hne h⟩

theorem canStart_iff_strFirst {x a : T} : CanStart eps ps x a ↔ StrFirst eps ps [x] a := by
  rw [strFirst_iff]; rfl

theorem Nullable.of_production {p : Production T} (hp : p ∈ ps)
    (h : StrNullable eps ps (rhs eps p)) : Nullable eps ps p.input :=
  (Derives.of_production hp).trans h.derives

theorem CanStart.of_production {p : Production T} (hp : p ∈ ps) {a : T}
    (h : StrFirst eps ps (rhs eps p) a) : CanStart eps ps p.input a := by
  obtain ⟨v, hv⟩ := h.derives
  exact ⟨h.isTerminal.1, h.isTerminal.2, v, (Derives.of_production hp).trans hv⟩

theorem Step.strNullable {a b : List T} (h : Step eps ps a b) (hb : StrNullable eps ps b) :
    StrNullable eps ps a :=
  derives_nil_iff.1 (.step h hb.derives)

theorem Step.strFirst {a b : List T} (h : Step eps ps a b) {x : T} (hb : StrFirst eps ps b x) :
    StrFirst eps ps a x := by
  obtain ⟨v, hv⟩ := hb.derives
  exact strFirst_of_derives hb.isTerminal.1 hb.isTerminal.2 (.step h hv)

/-! ## Closure principle for FIRST -/

section Closure

variable (N : T → Prop) (F : T → T → Prop)

/-- If `N` and `F` are closed under the productions, they contain everything derivable. -/
theorem first_closure
    (hN : ∀ p ∈ ps, (∀ x ∈ rhs eps p, N x) → N p.input)
    (hF : ∀ p ∈ ps, ∀ w y v, rhs eps p = w ++ y :: v → (∀ x ∈ w, N x) → ∀ a, F y a → F p.input a)
    {l m : List T} (h : Derives eps ps l m) :
    ((∀ x ∈ m, N x) → ∀ x ∈ l, N x) ∧
    (∀ a, (∃ w y v, m = w ++ y :: v ∧ (∀ x ∈ w, N x) ∧ F y a) →
      ∃ w y v, l = w ++ y :: v ∧ (∀ x ∈ w, N x) ∧ F y a) := by
  induction h with
  | refl => exact ⟨id, fun _ => id⟩
  | step s _ ih =>
    obtain ⟨ih₁, ih₂⟩ := ih
    cases s with
    | mk u t p hp =>
      refine ⟨fun hm => ?_, fun a ha => ?_⟩
      · have := ih₁ hm
        simp only [List.mem_append, or_imp, forall_and] at this
        intro x hx
        simp only [List.mem_append, List.mem_cons] at hx
        rcases hx with hx | rfl | hx
        · exact this.1.1 x hx
        · exact hN p hp this.1.2
        · exact this.2 x hx
      · obtain ⟨w, y, v, hw, hwN, hy⟩ := ih₂ a ha
        rw [List.append_assoc] at hw
        rcases List.append_eq_append_iff.1 hw with ⟨w', rfl, hw'⟩ | ⟨w', rfl, hw'⟩
        · -- y is after u
          rcases List.append_eq_append_iff.1 hw' with ⟨w'', rfl, hw''⟩ | ⟨w'', he, hw''⟩
          · -- y is in t
            refine ⟨u ++ p.input :: w'', y, v, by simp [hw''], ?_, hy⟩
            intro x hx
            simp only [List.mem_append, List.mem_cons] at hx
            simp only [List.mem_append] at hwN
            rcases hx with hx | rfl | hx
            · exact hwN x (.inl hx)
            · exact hN p hp fun z hz => hwN z (.inr (.inl hz))
            · exact hwN x (.inr (.inr hx))
          · cases w'' with
            | nil =>
              simp only [List.append_nil, List.nil_append] at he hw''
              subst he
              refine ⟨u ++ [p.input], y, v, by simp [hw''], ?_, hy⟩
              intro x hx
              simp only [List.mem_append, List.mem_singleton] at hx
              simp only [List.mem_append] at hwN
              rcases hx with hx | rfl
              · exact hwN x (.inl hx)
              · exact hN p hp fun z hz => hwN z (.inr hz)
            | cons z w'' =>
              simp only [List.cons_append, List.cons.injEq] at hw''
              obtain ⟨rfl, rfl⟩ := hw''
              refine ⟨u, p.input, t, rfl, fun x hx => hwN x (by simp [hx]), ?_⟩
              exact hF p hp w' y w'' he (fun x hx => hwN x (by simp [hx])) a hy
        · cases w' with
          | nil =>
            simp only [List.nil_append] at hw'
            cases hr : rhs eps p with
            | nil =>
              rw [hr, List.nil_append] at hw'
              refine ⟨w ++ [p.input], y, v, by simp [hw'], ?_, hy⟩
              intro x hx
              simp only [List.mem_append, List.mem_singleton] at hx
              rcases hx with hx | rfl
              · exact hwN x hx
              · exact hN p hp (by simp [hr])
            | cons z r =>
              rw [hr] at hw'
              simp only [List.cons_append, List.cons.injEq] at hw'
              obtain ⟨rfl, hw'⟩ := hw'
              refine ⟨w, p.input, t, by simp, hwN, ?_⟩
              exact hF p hp [] y r (by simp [hr]) (by simp) a hy
          | cons z w' =>
            simp only [List.cons_append, List.cons.injEq] at hw'
            obtain ⟨rfl, rfl⟩ := hw'
            exact ⟨w, y, w' ++ p.input :: t, by simp, hwN, hy⟩

theorem nullable_of_closed
    (hN : ∀ p ∈ ps, (∀ x ∈ rhs eps p, N x) → N p.input)
    {x : T} (h : Nullable eps ps x) : N x := by
  have := (first_closure (eps := eps) (ps := ps) N (fun _ _ => True) hN
    (fun _ _ _ _ _ _ _ _ _ => trivial) h).1
  exact this (by simp) x (by simp)

theorem canStart_of_closed
    (hN : ∀ p ∈ ps, (∀ x ∈ rhs eps p, N x) → N p.input)
    (hF : ∀ p ∈ ps, ∀ w y v, rhs eps p = w ++ y :: v → (∀ x ∈ w, N x) → ∀ a, F y a → F p.input a)
    (hT : ∀ a, IsTerminal ps a → a ≠ eps → F a a)
    {x a : T} (h : CanStart eps ps x a) : F x a := by
  obtain ⟨ha, hne, v, hd⟩ := h
  obtain ⟨w, y, v', he, _, hy⟩ := (first_closure (eps := eps) (ps := ps) N F hN hF hd).2 a
    ⟨[], a, v, rfl, by simp, hT a ha hne⟩
  cases w with
  | nil => simp at he; rw [he.1]; exact hy
  | cons z w => cases w <;> simp at he

end Closure

/-! ## Closure principle for FOLLOW -/

/-- The set FOLLOW the code computes: the textbook rules, except that the first rule is not applied
at a non-terminal that is immediately followed by itself. -/
inductive FollowRule (eps : T) (ps : List (Production T)) : T → T → Prop where
  | first {p : Production T} {u t : List T} {x a : T} (hp : p ∈ ps)
      (hr : rhs eps p = u ++ x :: t) (hx : IsNonTerminal ps x) (ht : t.head? ≠ some x)
      (ha : StrFirst eps ps t a) : FollowRule eps ps x a
  | last {p : Production T} {u t : List T} {x a : T} (hp : p ∈ ps)
      (hr : rhs eps p = u ++ x :: t) (hx : IsNonTerminal ps x) (ht : StrNullable eps ps t)
      (ha : FollowRule eps ps p.input a) : FollowRule eps ps x a

theorem follow_closure (Fo : T → T → Prop)
    (h1 : ∀ p ∈ ps, ∀ u x t a, rhs eps p = u ++ x :: t → IsNonTerminal ps x →
      StrFirst eps ps t a → Fo x a)
    (h2 : ∀ p ∈ ps, ∀ u x t a, rhs eps p = u ++ x :: t → IsNonTerminal ps x →
      StrNullable eps ps t → Fo p.input a → Fo x a)
    {l m : List T} (h : Derives eps ps l m)
    (hl : ∀ u x t a, l = u ++ x :: t → IsNonTerminal ps x → StrFirst eps ps t a → Fo x a) :
    ∀ u x t a, m = u ++ x :: t → IsNonTerminal ps x → StrFirst eps ps t a → Fo x a := by
  induction h with
  | refl => exact hl
  | step s _ ih =>
    refine ih ?_
    clear ih
    cases s with
    | mk s t p hp =>
      intro u x t' a he hx ha
      rw [List.append_assoc] at he
      rcases List.append_eq_append_iff.1 he with ⟨w, rfl, hw⟩ | ⟨w, rfl, hw⟩
      · rcases List.append_eq_append_iff.1 hw with ⟨w', rfl, hw'⟩ | ⟨w', hr, hw'⟩
        · exact hl (s ++ p.input :: w') x t' a (by simp [hw']) hx ha
        · cases w' with
          | nil =>
            simp only [List.nil_append] at hw'
            exact hl (s ++ [p.input]) x t' a (by simp [← hw']) hx ha
          | cons z w' =>
            simp only [List.cons_append, List.cons.injEq] at hw'
            obtain ⟨rfl, rfl⟩ := hw'
            rcases strFirst_append.1 ha with ha | ⟨hn, ha⟩
            · exact h1 p hp w x w' a hr hx ha
            · exact h2 p hp w x w' a hr hx hn (hl s p.input t a rfl ⟨p, hp, rfl⟩ ha)
      · cases w with
        | nil =>
          simp only [List.nil_append, List.append_nil] at hw hl ⊢
          cases hr : rhs eps p with
          | nil =>
            rw [hr, List.nil_append] at hw
            exact hl (u ++ [p.input]) x t' a (by simp [← hw]) hx ha
          | cons z r =>
            rw [hr] at hw
            simp only [List.cons_append, List.cons.injEq] at hw
            obtain ⟨rfl, rfl⟩ := hw
            rcases strFirst_append.1 ha with ha | ⟨hn, ha⟩
            · exact h1 p hp [] x r a (by simp [hr]) hx ha
            · exact h2 p hp [] x r a (by simp [hr]) hx hn (hl u p.input t a rfl ⟨p, hp, rfl⟩ ha)
        | cons z w =>
          simp only [List.cons_append, List.cons.injEq] at hw
          obtain ⟨rfl, rfl⟩ := hw
          refine hl u x (w ++ p.input :: t) a (by simp) hx ?_
          have : Step eps ps (w ++ p.input :: t) (w ++ (rhs eps p ++ t)) := by
            simpa using Step.mk (eps := eps) w t p hp
          exact this.strFirst ha

/-- Closure under the unrestricted textbook rules gives all of FOLLOW. -/
theorem canFollow_of_closed (Fo : T → T → Prop)
    (h1 : ∀ p ∈ ps, ∀ u x t a, rhs eps p = u ++ x :: t → IsNonTerminal ps x →
      StrFirst eps ps t a → Fo x a)
    (h2 : ∀ p ∈ ps, ∀ u x t a, rhs eps p = u ++ x :: t → IsNonTerminal ps x →
      StrNullable eps ps t → Fo p.input a → Fo x a)
    {x a : T} (hx : IsNonTerminal ps x) (h : CanFollow eps ps x a) : Fo x a := by
  obtain ⟨ha, hne, n, u, v, _, hd⟩ := h
  refine follow_closure Fo h1 h2 hd ?_ u x (a :: v) a rfl hx ?_
  · intro u x t a he _ hf
    cases u with
    | nil => simp at he; rw [he.2] at hf; exact absurd hf not_strFirst_nil
    | cons z u => cases u <;> simp at he
  · exact strFirst_cons.2 (.inl (CanStart.self ha hne))

/-- Everything the code's rules give is in FOLLOW. -/
theorem FollowRule.canFollow {x a : T} (h : FollowRule eps ps x a) : CanFollow eps ps x a := by
  induction h with
  | first hp hr hx ht ha =>
    rename_i p u t x a
    obtain ⟨v, hv⟩ := ha.derives
    refine ⟨ha.isTerminal.1, ha.isTerminal.2, p.input, u, v, ⟨p, hp, rfl⟩, ?_⟩
    have h1 := Derives.of_production (eps := eps) hp
    rw [hr] at h1
    have := hv.context (u ++ [x]) []
    simp only [List.append_assoc, List.cons_append, List.nil_append, List.append_nil] at this
    exact h1.trans this
  | last hp hr hx ht ha ih =>
    rename_i p u t x a
    obtain ⟨h1, h2, n, u', v', hn, hd⟩ := ih
    refine ⟨h1, h2, n, u' ++ u, v', hn, hd.trans ?_⟩
    have e1 := (Derives.of_production (eps := eps) hp).context u' (a :: v')
    rw [hr] at e1
    have e2 := ht.derives.context (u' ++ u ++ [x]) (a :: v')
    simp only [List.append_assoc, List.cons_append, List.nil_append] at e1 e2 ⊢
    exact e1.trans e2

/-- The code's rules give all of FOLLOW exactly when they do so for the repeated neighbours. -/
theorem followRule_complete_iff :
    (∀ x a, IsNonTerminal ps x → CanFollow eps ps x a → FollowRule eps ps x a) ↔
    (∀ p ∈ ps, ∀ u x t a, rhs eps p = u ++ x :: x :: t → IsNonTerminal ps x →
      CanStart eps ps x a → FollowRule eps ps x a) := by
  constructor
  · intro H p hp u x t a hr hx ha
    refine H x a hx ⟨ha.1, ha.2.1, p.input, u, ?_⟩
    obtain ⟨_, _, v, hv⟩ := ha
    refine ⟨v ++ t, ⟨p, hp, rfl⟩, ?_⟩
    have h1 := Derives.of_production (eps := eps) hp
    rw [hr] at h1
    have := hv.context (u ++ [x]) t
    simp only [List.append_assoc, List.cons_append, List.nil_append] at this
    exact h1.trans this
  · intro H x a hx h
    refine canFollow_of_closed (FollowRule eps ps) ?_ ?_ hx h
    · intro p hp u x t
      induction t generalizing u with
      | nil => intro a _ _ h; exact absurd h not_strFirst_nil
      | cons y t ih =>
        intro a hr hx ha
        by_cases hy : y = x
        · subst hy
          rcases strFirst_cons.1 ha with ha | ⟨_, ha⟩
          · exact H p hp u y t a hr hx ha
          · exact ih (u ++ [y]) a (by simp [hr]) hx ha
        · exact .first hp hr hx (by simpa using hy) ha
    · intro p hp u x t a hr hx ht ha
      exact .last hp hr hx ht ha

theorem rhs_eq_output_of_mem {p : Production T} {u t : List T} {x : T}
    (h : rhs eps p = u ++ x :: t) : p.output = u ++ x :: t := by
  unfold rhs at h
  split at h
  · cases u <;> simp at h
  · exact h

theorem followRule_complete (hadj : NoAdjacentRepeat ps) {x a : T} (hx : IsNonTerminal ps x)
    (h : CanFollow eps ps x a) : FollowRule eps ps x a := by
  refine followRule_complete_iff.2 ?_ x a hx h
  intro p hp u x t a hr hx _
  exact absurd hx (hadj p hp u x t (rhs_eq_output_of_mem hr))

end Verif.Spec
