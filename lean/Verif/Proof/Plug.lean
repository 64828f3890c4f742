import Verif.Proof.Compose
import Verif.Spec.Plug

/-!
# A grammar in place of a terminal of another one
-/

set_option linter.unusedSectionVars false

namespace Verif

open Spec

variable {L T : Type} [DecidableEq T] {eps b : T} {ps qs : List (Production T)} {S : List T → Prop}

namespace Spec.Replaced

theorem append {u u' w w' : List T} (h : Replaced b S u w) (h' : Replaced b S u' w') :
    Replaced b S (u ++ u') (w ++ w') := by
  induction h with
  | nil => exact h'
  | keep c u w hc _ ih => exact .keep c _ _ hc ih
  | put v u w hv _ ih =>
    rw [List.append_assoc]
    exact .put v _ _ hv ih

theorem refl (hS : S [b]) (l : List T) : Replaced b S l l := by
  induction l with
  | nil => exact .nil
  | cons c l ih =>
    by_cases hc : c = b
    · subst hc
      exact .put [c] _ _ hS ih
    · exact .keep c _ _ hc ih

theorem mono {S' : List T → Prop} (hS : ∀ v, S v → S' v) {u w : List T} (h : Replaced b S u w) :
    Replaced b S' u w := by
  induction h with
  | nil => exact .nil
  | keep c u w hc _ ih => exact .keep c _ _ hc ih
  | put v u w hv _ ih => exact .put v _ _ (hS v hv) ih

/-- Where a symbol of the long word comes from. -/
theorem split {m : List T} {x : List T} (h : Replaced b S m x) {u v : List T} {A : T} (e : x = u ++ A :: v) :
    (∃ m1 m2, m = m1 ++ A :: m2 ∧ A ≠ b ∧ Replaced b S m1 u ∧ Replaced b S m2 v) ∨
    ∃ m1 m2 u1 u2 v1 v2, m = m1 ++ b :: m2 ∧ u = u1 ++ u2 ∧ v = v1 ++ v2 ∧ S (u2 ++ A :: v1) ∧
      Replaced b S m1 u1 ∧ Replaced b S m2 v2 := by
  induction h generalizing u with
  | nil => simp at e
  | keep c m w hc hr ih =>
    cases u with
    | nil =>
      simp only [List.nil_append, List.cons.injEq] at e
      obtain ⟨rfl, rfl⟩ := e
      exact .inl ⟨[], m, rfl, hc, .nil, hr⟩
    | cons z u =>
      simp only [List.cons_append, List.cons.injEq] at e
      obtain ⟨rfl, e⟩ := e
      rcases ih e with ⟨m1, m2, rfl, hA, h1, h2⟩ | ⟨m1, m2, u1, u2, v1, v2, rfl, rfl, rfl, hs, h1, h2⟩
      · exact .inl ⟨c :: m1, m2, rfl, hA, .keep c _ _ hc h1, h2⟩
      · exact .inr ⟨c :: m1, m2, c :: u1, u2, v1, v2, rfl, rfl, rfl, hs, .keep c _ _ hc h1, h2⟩
  | put s m w hs hr ih =>
    rw [List.append_eq_append_iff] at e
    rcases e with ⟨u', rfl, e⟩ | ⟨s', rfl, e⟩
    · rcases ih e with ⟨m1, m2, rfl, hA, h1, h2⟩ | ⟨m1, m2, u1, u2, v1, v2, rfl, rfl, rfl, hs', h1, h2⟩
      · exact .inl ⟨b :: m1, m2, rfl, hA, .put s _ _ hs h1, h2⟩
      · exact .inr ⟨b :: m1, m2, s ++ u1, u2, v1, v2, rfl, by simp, rfl, hs', .put s _ _ hs h1, h2⟩
    · cases s' with
      | nil =>
        simp only [List.nil_append] at e
        rcases ih (u := []) e.symm with ⟨m1, m2, rfl, hA, h1, h2⟩ | ⟨m1, m2, u1, u2, v1, v2, rfl, e1, rfl, hs', h1, h2⟩
        · refine .inl ⟨b :: m1, m2, rfl, hA, ?_, h2⟩
          have := Replaced.put u _ _ (by simpa using hs) h1
          simpa using this
        · obtain ⟨rfl, rfl⟩ := List.append_eq_nil_iff.1 e1.symm
          refine .inr ⟨b :: m1, m2, u, [], v1, v2, rfl, by simp, rfl, hs', ?_, h2⟩
          have := Replaced.put u m1 [] (by simpa using hs) h1
          simpa using this
      | cons z s' =>
        simp only [List.cons_append, List.cons.injEq] at e
        obtain ⟨rfl, rfl⟩ := e
        exact .inr ⟨[], m, [], u, s', w, rfl, rfl, rfl, hs, .nil, hr⟩

theorem nil_inv {m : List T} (h : Replaced b S m []) (hS : ¬ S []) : m = [] := by
  generalize e : ([] : List T) = y at h
  cases h with
  | nil => rfl
  | keep => simp at e
  | put v u w hv _ =>
    obtain ⟨rfl, -⟩ := List.append_eq_nil_iff.1 e.symm
    exact absurd hv (e ▸ hS)

theorem head {m : List T} {c : T} {v : List T} (h : Replaced b S m (c :: v)) (hS : ¬ S []) :
    (∃ m', m = c :: m' ∧ c ≠ b ∧ Replaced b S m' v) ∨
      ∃ m' v1 v2, m = b :: m' ∧ S (c :: v1) ∧ v = v1 ++ v2 ∧ Replaced b S m' v2 := by
  generalize e : c :: v = x at h
  cases h with
  | nil => simp at e
  | keep d u w hd hr =>
    simp only [List.cons.injEq] at e
    obtain ⟨rfl, rfl⟩ := e
    exact .inl ⟨u, rfl, hd, hr⟩
  | put s u w hs hr =>
    cases s with
    | nil => exact absurd hs hS
    | cons d s =>
      simp only [List.cons_append, List.cons.injEq] at e
      obtain ⟨rfl, rfl⟩ := e
      exact .inr ⟨u, s, w, rfl, hs, rfl, hr⟩

end Spec.Replaced

namespace Spec.Plugs

theorem embeds (ha : Plugs b ps qs) : Embeds qs (ps ++ qs) where
  sub r hr := List.mem_append.2 (.inr hr)
  new r hr := by
    rcases List.mem_append.1 hr with hr | hr
    · exact .inr fun q hq => ha.left r hr q hq
    · exact .inl hr

theorem uses (ha : Plugs b ps qs) : Embeds.Uses qs (ps ++ qs) b := by
  intro r hr
  rcases List.mem_append.1 hr with hr | hr
  · refine .inr fun y hy ⟨q, hq, e⟩ => ?_
    rcases ha.right q hq with h | h
    · exact e.symm.trans h
    · exact absurd (e ▸ hy) (h r hr)
  · exact .inl hr

/-- `x` is not a non-terminal of `qs` other than `b`. -/
def Outer (b : T) (qs : List (Production T)) (x : T) : Prop := ∀ q ∈ qs, q.input = x → x = b

theorem outer_output (ha : Plugs b ps qs) {p : Production T} (hp : p ∈ ps) {x : T} (hx : x ∈ p.output) :
    Outer b qs x := by
  intro q hq e
  rcases ha.right q hq with h | h
  · exact e.symm.trans h
  · exact absurd (e ▸ hx) (h p hp)

theorem outer_nt (ha : Plugs b ps qs) {x : T} (hx : IsNonTerminal ps x) : Outer b qs x := by
  obtain ⟨p, hp, rfl⟩ := hx
  exact fun q hq e => absurd e.symm (ha.left p hp q hq).1

theorem b_not_nt (ha : Plugs b ps qs) : ¬ IsNonTerminal ps b := by
  rintro ⟨p, hp, e⟩
  obtain ⟨q, hq, e'⟩ := ha.nt
  exact (ha.left p hp q hq).1 (e.trans e'.symm)

theorem nt_iff {x : T} : IsNonTerminal (ps ++ qs) x ↔ IsNonTerminal ps x ∨ IsNonTerminal qs x := by
  unfold IsNonTerminal
  constructor
  · rintro ⟨r, hr, e⟩
    exact (List.mem_append.1 hr).imp (⟨r, ·, e⟩) (⟨r, ·, e⟩)
  · rintro (⟨r, hr, e⟩ | ⟨r, hr, e⟩)
    · exact ⟨r, List.mem_append.2 (.inl hr), e⟩
    · exact ⟨r, List.mem_append.2 (.inr hr), e⟩

theorem outer_nt_iff (_ : Plugs b ps qs) {x : T} (hx : Outer b qs x) (hb : x ≠ b) :
    IsNonTerminal (ps ++ qs) x ↔ IsNonTerminal ps x :=
  nt_iff.trans ⟨fun h => h.resolve_right fun ⟨q, hq, e⟩ => hb (hx q hq e), .inl⟩

theorem monoL {l m : List T} (h : Derives eps ps l m) : Derives eps (ps ++ qs) l m :=
  Derives.mono (fun _ hr => List.mem_append.2 (.inl hr)) h

/-- A derivation in both is one in `ps` with the `b`s replaced. -/
theorem derives (ha : Plugs b ps qs) {l m : List T} (h : Derives eps (ps ++ qs) l m)
    (hl : ∀ x ∈ l, Outer b qs x) :
    ∃ m', Derives eps ps l m' ∧ (∀ x ∈ m', Outer b qs x) ∧
      Replaced b (fun v => Derives eps (ps ++ qs) [b] v) m' m := by
  have key : ∀ {a c : List T}, Derives eps (ps ++ qs) a c → ∀ m', Derives eps ps l m' → (∀ x ∈ m', Outer b qs x) →
      Replaced b (fun v => Derives eps (ps ++ qs) [b] v) m' a →
      ∃ m', Derives eps ps l m' ∧ (∀ x ∈ m', Outer b qs x) ∧
        Replaced b (fun v => Derives eps (ps ++ qs) [b] v) m' c := by
    intro a c hd
    induction hd with
    | refl a => exact fun m' h1 h2 h3 => ⟨m', h1, h2, h3⟩
    | step hs _ ih =>
      intro m' h1 h2 h3
      cases hs with
      | mk u v p hp =>
        rcases Replaced.split h3 rfl with ⟨m1, m2, rfl, hA, k1, k2⟩ |
            ⟨m1, m2, u1, u2, v1, v2, rfl, rfl, rfl, hs, k1, k2⟩
        · have hp' : p ∈ ps := by
            rcases List.mem_append.1 hp with hp | hp
            · exact hp
            · exact absurd (h2 p.input (by simp) p hp rfl) hA
          refine ih (m1 ++ rhs eps p ++ m2) (h1.trans (.of_step (Step.mk m1 m2 p hp'))) ?_ ?_
          · intro x hx
            simp only [List.mem_append] at hx
            rcases hx with (hx | hx) | hx
            · exact h2 x (by simp [hx])
            · exact ha.outer_output hp' (rhs_subset hx)
            · exact h2 x (by simp [hx])
          · exact (k1.append (Replaced.refl (.refl _) _)).append k2
        · refine ih (m1 ++ b :: m2) h1 h2 ?_
          have hs' : Derives eps (ps ++ qs) [b] (u2 ++ rhs eps p ++ v1) :=
            Derives.trans hs (.of_step (Step.mk u2 v1 p hp))
          have := k1.append (Replaced.put (S := fun v => Derives eps (ps ++ qs) [b] v) _ _ _ hs' k2)
          simpa [List.append_assoc] using this
  exact key h l (.refl l) hl (Replaced.refl (.refl _) l)

/-- And back. -/
theorem derives_of {m' m : List T} (h : Replaced b (fun v => Derives eps (ps ++ qs) [b] v) m' m) :
    Derives eps (ps ++ qs) m' m := by
  induction h with
  | nil => exact .refl _
  | keep c u w _ _ ih => exact Derives.append (a := [c]) (.refl _) ih
  | put v u w hv _ ih => exact Derives.append (a := [b]) hv ih

section
variable (ha : Plugs b ps qs) (hb : ¬ Nullable eps qs b) (hbe : b ≠ eps)
include ha hb

theorem not_null : ¬ Derives eps (ps ++ qs) [b] [] := fun h =>
  hb ((ha.embeds.nullable (ha.embeds.old_nt ha.nt)).1 h)

theorem nullable {x : T} (hx : Outer b qs x) : Nullable eps (ps ++ qs) x ↔ Nullable eps ps x := by
  refine ⟨fun h => ?_, monoL⟩
  obtain ⟨m', h1, -, h3⟩ := ha.derives h (by simpa using hx)
  rw [h3.nil_inv (ha.not_null hb)] at h1
  exact h1

include hbe in
/-- What can start a symbol of `ps`. -/
theorem canStart {x : T} (hx : Outer b qs x) (hk : IsNonTerminal ps x ∨ ∃ p ∈ ps, x ∈ p.output) {c : T} :
    CanStart eps (ps ++ qs) x c ↔ (c ≠ b ∧ CanStart eps ps x c) ∨ (CanStart eps ps x b ∧ CanStart eps qs b c) := by
  have hob := ha.embeds.old_nt ha.nt
  constructor
  · rintro ⟨⟨ho, hn⟩, he, v, hd⟩
    obtain ⟨m', h1, h2, h3⟩ := ha.derives hd (by simpa using hx)
    have hout : ∀ y, y ∈ m' → ¬ IsNonTerminal ps y → ∃ p ∈ ps, y ∈ p.output := by
      intro y hy hny
      rcases mem_output_of_derives h1 hy with h | h
      · rw [List.mem_singleton.1 h] at hny ⊢
        exact hk.resolve_left hny
      · exact h
    rcases h3.head (ha.not_null hb) with ⟨m, rfl, hcb, -⟩ | ⟨m, v1, v2, rfl, hs, -, -⟩
    · have hn' : ¬ IsNonTerminal ps c := fun h => hn (nt_iff.2 (.inl h))
      exact .inl ⟨hcb, ⟨hout c (by simp) hn', hn'⟩, he, m, h1⟩
    · have hs' : CanStart eps (ps ++ qs) b c := ⟨⟨ho, hn⟩, he, v1, hs⟩
      refine .inr ⟨⟨⟨hout b (by simp) ha.b_not_nt, ha.b_not_nt⟩, ?_, m, h1⟩,
        (ha.embeds.canStart hob (.inl ha.nt)).1 hs'⟩
      exact hbe
  · rintro (⟨hcb, ⟨⟨p, hp, ho⟩, hn⟩, he, v, hd⟩ | ⟨⟨-, -, v, hd⟩, hc⟩)
    · refine ⟨⟨⟨p, List.mem_append.2 (.inl hp), ho⟩, ?_⟩, he, v, monoL hd⟩
      rwa [ha.outer_nt_iff (ha.outer_output hp ho) hcb]
    · obtain ⟨h1, h2, v', hd'⟩ := (ha.embeds.canStart hob (.inl ha.nt)).2 hc
      exact ⟨h1, h2, v' ++ v, (monoL hd).trans (Derives.append (a := [b]) hd' (.refl _))⟩

theorem strNullable {l : List T} (hl : ∀ x ∈ l, Outer b qs x) :
    StrNullable eps (ps ++ qs) l ↔ StrNullable eps ps l := by
  unfold StrNullable
  exact forall_congr' fun y => forall_congr' fun hy => ha.nullable hb (hl y hy)

include hbe in
theorem strFirst {p : Production T} (hp : p ∈ ps) {l : List T} (hl : ∀ y ∈ l, y ∈ p.output) {c : T} :
    StrFirst eps (ps ++ qs) l c ↔ (c ≠ b ∧ StrFirst eps ps l c) ∨ (StrFirst eps ps l b ∧ CanStart eps qs b c) := by
  have ho : ∀ y ∈ l, Outer b qs y := fun y hy => ha.outer_output hp (hl y hy)
  unfold StrFirst
  constructor
  · rintro ⟨u, y, v, rfl, h1, h2⟩
    have h1' := (ha.strNullable hb fun z hz => ho z (by simp [hz])).1 h1
    rcases (ha.canStart hb hbe (ho y (by simp)) (.inr ⟨p, hp, hl y (by simp)⟩)).1 h2 with ⟨k1, k2⟩ | ⟨k1, k2⟩
    · exact .inl ⟨k1, u, y, v, rfl, h1', k2⟩
    · exact .inr ⟨⟨u, y, v, rfl, h1', k1⟩, k2⟩
  · rintro (⟨k1, u, y, v, rfl, h1, k2⟩ | ⟨⟨u, y, v, rfl, h1, k1⟩, k2⟩) <;>
      refine ⟨u, y, v, rfl, (ha.strNullable hb fun z hz => ho z (by simp [hz])).2 h1,
        (ha.canStart hb hbe (ho y (by simp)) (.inr ⟨p, hp, hl y (by simp)⟩)).2 ?_⟩
    · exact .inl ⟨k1, k2⟩
    · exact .inr ⟨k1, k2⟩

include hbe in
theorem followRule {x : T} (hx : IsNonTerminal ps x) {c : T} :
    FollowRule eps (ps ++ qs) x c ↔
      (c ≠ b ∧ FollowRule eps ps x c) ∨ (FollowRule eps ps x b ∧ CanStart eps qs b c) := by
  constructor
  · intro h
    induction h with
    | @first q u t x c hp hr _ ht hc =>
      have hsub : ∀ y ∈ u ++ x :: t, y ∈ q.output := fun y hy => rhs_subset (by rw [hr]; exact hy)
      have hq : q ∈ ps := by
        rcases List.mem_append.1 hp with hp | hp
        · exact hp
        · obtain ⟨p, hp', rfl⟩ := hx
          exact absurd (hsub p.input (by simp)) (ha.left p hp' q hp).2
      rcases (ha.strFirst hb hbe hq fun y hy => hsub y (by simp [hy])).1 hc with ⟨k1, k2⟩ | ⟨k1, k2⟩
      · exact .inl ⟨k1, .first hq hr hx ht k2⟩
      · exact .inr ⟨.first hq hr hx ht k1, k2⟩
    | @last q u t x c hp hr _ ht _ ih =>
      have hsub : ∀ y ∈ u ++ x :: t, y ∈ q.output := fun y hy => rhs_subset (by rw [hr]; exact hy)
      have hq : q ∈ ps := by
        rcases List.mem_append.1 hp with hp | hp
        · exact hp
        · obtain ⟨p, hp', rfl⟩ := hx
          exact absurd (hsub p.input (by simp)) (ha.left p hp' q hp).2
      have ht' := (ha.strNullable hb fun y hy => ha.outer_output hq (hsub y (by simp [hy]))).1 ht
      rcases ih ⟨q, hq, rfl⟩ with ⟨k1, k2⟩ | ⟨k1, k2⟩
      · exact .inl ⟨k1, .last hq hr hx ht' k2⟩
      · exact .inr ⟨.last hq hr hx ht' k1, k2⟩
  · have key : ∀ {y d : T}, FollowRule eps ps y d →
        (c = d ∧ c ≠ b) ∨ (d = b ∧ CanStart eps qs b c) → FollowRule eps (ps ++ qs) y c := by
      intro y d h hcd
      induction h with
      | @first q u t x d hp hr hx ht hc =>
        have hsub : ∀ y ∈ u ++ x :: t, y ∈ q.output := fun y hy => rhs_subset (by rw [hr]; exact hy)
        refine .first (List.mem_append.2 (.inl hp)) hr (nt_iff.2 (.inl hx)) ht
          ((ha.strFirst hb hbe hp fun y hy => hsub y (by simp [hy])).2 ?_)
        rcases hcd with ⟨rfl, k⟩ | ⟨rfl, k⟩
        · exact .inl ⟨k, hc⟩
        · exact .inr ⟨hc, k⟩
      | @last q u t x d hp hr hx ht _ ih =>
        have hsub : ∀ y ∈ u ++ x :: t, y ∈ q.output := fun y hy => rhs_subset (by rw [hr]; exact hy)
        exact .last (List.mem_append.2 (.inl hp)) hr (nt_iff.2 (.inl hx))
          ((ha.strNullable hb fun y hy => ha.outer_output hp (hsub y (by simp [hy]))).2 ht) (ih hcd)
    rintro (⟨k1, k2⟩ | ⟨k1, k2⟩)
    · exact key k2 (.inl ⟨rfl, k1⟩)
    · exact key k1 (.inr ⟨rfl, k2⟩)

include hbe in
theorem lead {q : Production T} (hq : q ∈ ps) (c : T) :
    Transitions.Lead eps (ps ++ qs) q c ↔
      (c ≠ b ∧ Transitions.Lead eps ps q c) ∨ (Transitions.Lead eps ps q b ∧ CanStart eps qs b c) := by
  unfold Transitions.Lead
  rw [ha.followRule hb hbe ⟨q, hq, rfl⟩]
  cases hr : rhs eps q with
  | nil => simp
  | cons x t =>
    have hx : x ∈ q.output := rhs_subset (eps := eps) (by rw [hr]; simp)
    have hxo := ha.outer_output hq hx
    have h1 := ha.canStart hb hbe hxo (.inr ⟨q, hq, hx⟩) (c := c)
    have h2 := ha.nullable hb hxo
    have h3 : Nullable eps ps x → (FollowRule eps (ps ++ qs) x c ↔
        (c ≠ b ∧ FollowRule eps ps x c) ∨ (FollowRule eps ps x b ∧ CanStart eps qs b c)) := by
      intro hn
      refine ha.followRule hb hbe ?_
      by_contra hc
      have := Derives.terminal_eq hc hn
      simp at this
    have e : ∀ P : T → List T → Prop, (∃ y s, x :: t = y :: s ∧ P y s) ↔ P x t := by
      intro P
      constructor
      · rintro ⟨y, s, e, h⟩
        obtain ⟨rfl, rfl⟩ := List.cons.inj e
        exact h
      · exact fun h => ⟨x, t, rfl, h⟩
    simp only [e, reduceCtorEq, false_and, false_or, h1, h2]
    constructor
    · rintro ((⟨k1, k2⟩ | ⟨k1, k2⟩) | ⟨kn, k⟩)
      · exact .inl ⟨k1, .inl k2⟩
      · exact .inr ⟨.inl k1, k2⟩
      · rcases (h3 kn).1 k with ⟨k1, k2⟩ | ⟨k1, k2⟩
        · exact .inl ⟨k1, .inr ⟨kn, k2⟩⟩
        · exact .inr ⟨.inr ⟨kn, k1⟩, k2⟩
    · rintro (⟨k1, k2 | ⟨kn, k2⟩⟩ | ⟨k1 | ⟨kn, k1⟩, k2⟩)
      · exact .inl (.inl ⟨k1, k2⟩)
      · exact .inr ⟨kn, (h3 kn).2 (.inl ⟨k1, k2⟩)⟩
      · exact .inl (.inr ⟨k1, k2⟩)
      · exact .inr ⟨kn, (h3 kn).2 (.inr ⟨k1, k2⟩)⟩

/-- No left recursion comes in. -/
theorem notLeftRecursive :
    NotLeftRecursive eps (ps ++ qs) ↔ NotLeftRecursive eps ps ∧ NotLeftRecursive eps qs := by
  refine ⟨fun h => ⟨?_, ha.embeds.notLeftRec h⟩, ?_⟩
  · rintro x v ⟨m, hs, hd⟩
    obtain ⟨q, hq, rfl, rfl⟩ := Step.single hs
    exact h _ v ⟨_, Step.of_production (List.mem_append.2 (.inl hq)), monoL hd⟩
  · rintro ⟨k1, k2⟩ x v h
    obtain ⟨m, hs, hd⟩ := id h
    obtain ⟨q, hq, rfl, rfl⟩ := Step.single hs
    rcases List.mem_append.1 hq with hq | hq
    · obtain ⟨m', h1, h2, h3⟩ := ha.derives hd fun y hy => ha.outer_output hq (rhs_subset hy)
      rcases h3.head (ha.not_null hb) with ⟨m, rfl, -, -⟩ | ⟨m, v1, v2, rfl, hs', -, -⟩
      · exact k1 _ _ ⟨_, Step.of_production hq, h1⟩
      · have := (ha.embeds.derives hs' (by simpa using ha.embeds.old_nt ha.nt)).2 q.input (by simp) q
          (List.mem_append.2 (.inl hq)) rfl
        exact absurd rfl (ha.left q hq q this).1
    · exact k2 _ v (ha.embeds.leftRec (ha.embeds.old_nt ⟨q, hq, rfl⟩) h)

end

theorem noAdjacentRepeat (ha : Plugs b ps qs) :
    NoAdjacentRepeat (ps ++ qs) ↔ NoAdjacentRepeat ps ∧ NoAdjacentRepeat qs ∧
      ∀ p ∈ ps, ∀ u v, p.output ≠ u ++ b :: b :: v := by
  constructor
  · intro h
    refine ⟨fun p hp u x v e hn => ?_, fun p hp u x v e hn => ?_, fun p hp u v e => ?_⟩
    · exact h p (List.mem_append.2 (.inl hp)) u x v e (nt_iff.2 (.inl hn))
    · exact h p (List.mem_append.2 (.inr hp)) u x v e (nt_iff.2 (.inr hn))
    · exact h p (List.mem_append.2 (.inl hp)) u b v e (nt_iff.2 (.inr ha.nt))
  · rintro ⟨h1, h2, h3⟩ p hp u x v e hn
    rcases List.mem_append.1 hp with hp | hp
    · by_cases hxb : x = b
      · subst hxb
        exact h3 p hp u v e
      · exact h1 p hp u x v e ((ha.outer_nt_iff (ha.outer_output hp (by rw [e]; simp)) hxb).1 hn)
    · refine h2 p hp u x v e ((nt_iff.1 hn).resolve_left ?_)
      rintro ⟨r, hr, rfl⟩
      exact (ha.left r hr p hp).2 (by rw [e]; simp)

/-- An end marker of the outer grammar stays one. -/
theorem endMarked (ha : Plugs b ps qs) {init e : T} (hi : IsNonTerminal ps init) (hm : EndMarked eps init e ps)
    (heb : e ≠ b) (heq : ∀ q ∈ qs, e ∉ q.output) : EndMarked eps init e (ps ++ qs) where
  ne_eps := hm.ne_eps
  terminal := by
    obtain ⟨p, hp, hpi⟩ := id hi
    obtain ⟨u, hu, -⟩ := hm.initial_ends p hp hpi
    rw [ha.outer_nt_iff (ha.outer_output hp (by rw [hu]; simp)) heb]
    exact hm.terminal
  initial_once r hr := by
    rcases List.mem_append.1 hr with hr | hr
    · exact hm.initial_once r hr
    · obtain ⟨p, hp, rfl⟩ := hi
      exact (ha.left p hp r hr).2
  initial_ends r hr hri := by
    rcases List.mem_append.1 hr with hr | hr
    · exact hm.initial_ends r hr hri
    · obtain ⟨p, hp, rfl⟩ := hi
      exact absurd hri.symm (ha.left p hp r hr).1
  only_there r hr hri := by
    rcases List.mem_append.1 hr with hr | hr
    · exact hm.only_there r hr hri
    · exact heq r hr

/-- The trees are those of the outer grammar with trees of the inner one at the leaves `b`. -/
theorem tree (ha : Plugs b ps qs) (hbe : b ≠ eps) {x : T} {w : List (Token L T)} {n : Node L T}
    (h : IsTree eps (ps ++ qs) x w n) (hx : Outer b qs x) :
    ∃ u n0, IsTree eps ps x u n0 ∧ Grafted b (fun m => ∃ v, IsTree eps qs b v m) n0 n := by
  refine IsTree.rec (eps := eps) (ps := ps ++ qs)
    (motive_1 := fun x w n _ => Outer b qs x → ∃ u n0, IsTree eps ps x u n0 ∧
      Grafted b (fun m => ∃ v, IsTree eps qs b v m) n0 n)
    (motive_2 := fun xs w ns _ => (∀ x ∈ xs, Outer b qs x) → ∃ u ns0, IsForest eps ps xs u ns0 ∧
      GraftedAll b (fun m => ∃ v, IsTree eps qs b v m) ns0 ns) ?_ ?_ ?_ ?_ ?_ h hx
  · intro t h1 h2 _
    have hb : t.tType ≠ b := fun e => h1 (e ▸ nt_iff.2 (.inr ha.nt))
    exact ⟨[t], .mk [] t, .leaf t (fun h => h1 (nt_iff.2 (.inl h))) h2, .node [] [] t hb .nil⟩
  · intro _
    exact ⟨[], .mk [] ⟨none, eps⟩, .eps, .node [] [] _ (fun e => hbe e.symm) .nil⟩
  · intro p w ns hp hns ih ho
    rcases List.mem_append.1 hp with hp | hp
    · obtain ⟨u, ns0, k1, k2⟩ := ih fun x hx => ha.outer_output hp hx
      refine ⟨u, .mk ns0 ⟨none, p.input⟩, .node p u ns0 hp k1, .node _ _ _ ?_ k2⟩
      intro e
      exact ha.b_not_nt ⟨p, hp, e⟩
    · have hpb := ho p hp rfl
      have ht : IsTree eps qs b w (.mk ns ⟨none, p.input⟩) := by
        have := ha.embeds.tree (IsTree.node p w ns (List.mem_append.2 (.inr hp)) hns) (ha.embeds.old_nt ⟨p, hp, rfl⟩)
        rwa [hpb] at this ⊢
      refine ⟨[⟨none, b⟩], .mk [] ⟨none, b⟩, ?_, .put _ _ rfl ⟨w, ht⟩⟩
      rw [hpb]
      exact .leaf ⟨none, b⟩ ha.b_not_nt hbe
  · intro _
    exact ⟨[], [], .nil, .nil⟩
  · intro x xs w w' n ns _ _ ih1 ih2 ho
    obtain ⟨u, n0, k1, k2⟩ := ih1 (ho x (by simp))
    obtain ⟨u', ns0, k1', k2'⟩ := ih2 fun y hy => ho y (by simp [hy])
    exact ⟨u ++ u', n0 :: ns0, .cons _ _ _ _ _ _ k1 k1', .cons _ _ _ _ k2 k2'⟩

/-- And back. -/
theorem tree_mk (ha : Plugs b ps qs) (hbe : b ≠ eps) {x : T} {u : List (Token L T)} {n0 : Node L T}
    (h : IsTree eps ps x u n0) :
    (x = b ∨ ¬ IsNonTerminal qs x) → ∀ n, Grafted b (fun m => ∃ v, IsTree eps qs b v m) n0 n →
      ∃ w, IsTree eps (ps ++ qs) x w n := by
  refine IsTree.rec (eps := eps) (ps := ps)
    (motive_1 := fun x w n0 _ => (x = b ∨ ¬ IsNonTerminal qs x) → ∀ n,
      Grafted b (fun m => ∃ v, IsTree eps qs b v m) n0 n → ∃ w, IsTree eps (ps ++ qs) x w n)
    (motive_2 := fun xs w ns0 _ => (∀ x ∈ xs, x = b ∨ ¬ IsNonTerminal qs x) → ∀ ns,
      GraftedAll b (fun m => ∃ v, IsTree eps qs b v m) ns0 ns → ∃ w, IsForest eps (ps ++ qs) xs w ns)
    ?_ ?_ ?_ ?_ ?_ h
  · intro t h1 h2 ho n hg
    cases hg with
    | put t n e hs =>
      obtain ⟨v, hv⟩ := hs
      exact ⟨v, e ▸ ha.embeds.tree_mono hv (ha.embeds.old_nt ha.nt)⟩
    | node cs ds t hb hd =>
      cases hd
      exact ⟨[t], .leaf t (fun hn => (nt_iff.1 hn).elim h1 (ho.resolve_left hb)) h2⟩
  · intro _ n hg
    cases hg with
    | put t n e hs => exact absurd e.symm hbe
    | node cs ds t hb hd =>
      cases hd
      exact ⟨[], .eps⟩
  · intro p w ns hp _ ih _ n hg
    cases hg with
    | put t n e hs => exact absurd ⟨p, hp, e⟩ ha.b_not_nt
    | node cs ds t hb hd =>
      obtain ⟨w', hw⟩ := ih (fun x hx => by
        by_cases hn : IsNonTerminal qs x
        · obtain ⟨q, hq, e⟩ := hn
          exact .inl (ha.outer_output hp hx q hq e)
        · exact .inr hn) ds hd
      exact ⟨w', .node p w' ds (List.mem_append.2 (.inl hp)) hw⟩
  · intro _ ns hg
    cases hg
    exact ⟨[], .nil⟩
  · intro x xs w w' n ns _ _ ih1 ih2 ho ms hg
    cases hg with
    | cons _ d _ ds g1 g2 =>
      obtain ⟨w1, k1⟩ := ih1 (ho x (by simp)) d g1
      obtain ⟨w2, k2⟩ := ih2 (fun y hy => ho y (by simp [hy])) ds g2
      exact ⟨w1 ++ w2, .cons _ _ _ _ _ _ k1 k2⟩

/-- The sentences. -/
theorem sentence_iff (ha : Plugs b ps qs) (hbe : b ≠ eps) {init : T} (hi : IsNonTerminal ps init) {w : List T} :
    Sentence eps init (ps ++ qs) w ↔
      ∃ u, Sentence eps init ps u ∧ Replaced b (fun v => Sentence eps b qs v) u w := by
  have hob := ha.embeds.old_nt ha.nt
  have hib : init ≠ b := fun e => ha.b_not_nt (e ▸ hi)
  constructor
  · rintro ⟨hd, hw⟩
    obtain ⟨m', h1, h2, h3⟩ := ha.derives hd (by simpa using ha.outer_nt hi)
    have hm : ∀ c ∈ m', c = b ∨ c ∈ w := by
      clear hd hw h1 h2
      induction h3 with
      | nil => simp
      | keep c u w _ _ ih =>
        intro d hd
        rcases List.mem_cons.1 hd with rfl | hd
        · simp
        · exact (ih d hd).imp_right (by simp +contextual)
      | put v u w _ _ ih =>
        intro d hd
        rcases List.mem_cons.1 hd with rfl | hd
        · simp
        · exact (ih d hd).imp_right (by simp +contextual)
    refine ⟨m', ⟨h1, fun c hc => ?_⟩, ?_⟩
    · have hout : ¬ IsNonTerminal ps c → ∃ p ∈ ps, c ∈ p.output := by
        intro hn
        rcases mem_output_of_derives h1 hc with h | h
        · exact absurd (List.mem_singleton.1 h ▸ hi) hn
        · exact h
      rcases hm c hc with rfl | hcw
      · exact ⟨⟨hout ha.b_not_nt, ha.b_not_nt⟩, hbe⟩
      · have hn : ¬ IsNonTerminal ps c := fun h => (hw c hcw).1.2 (nt_iff.2 (.inl h))
        exact ⟨⟨hout hn, hn⟩, (hw c hcw).2⟩
    · clear h1 h2 hd hm
      induction h3 with
      | nil => exact .nil
      | keep c u w hc _ ih => exact .keep c _ _ hc (ih fun d hd => hw d (by simp [hd]))
      | put v u w hv _ ih =>
        refine .put v _ _ ?_ (ih fun d hd => hw d (by simp [hd]))
        exact (ha.embeds.sentence ha.nt).1 ⟨hv, fun d hd => hw d (by simp [hd])⟩
  · rintro ⟨u, ⟨hd, hu⟩, hr⟩
    refine ⟨(monoL hd).trans (derives_of (hr.mono fun v hv => ((ha.embeds.sentence ha.nt).2 hv).1)), ?_⟩
    clear hd
    induction hr with
    | nil => simp
    | keep c u w hc _ ih =>
      intro d hd
      rcases List.mem_cons.1 hd with rfl | hd
      · obtain ⟨⟨⟨p, hp, ho⟩, hn⟩, he⟩ := hu d (by simp)
        exact ⟨⟨⟨p, List.mem_append.2 (.inl hp), ho⟩, by rwa [ha.outer_nt_iff (ha.outer_output hp ho) hc]⟩, he⟩
      · exact ih (fun d hd => hu d (by simp [hd])) d hd
    | put v u w hv _ ih =>
      intro d hd
      rcases List.mem_append.1 hd with hd | hd
      · exact ((ha.embeds.sentence ha.nt).2 hv).2 d hd
      · exact ih (fun d hd => hu d (by simp [hd])) d hd

end Spec.Plugs

end Verif
