import Verif.Proof.Augment
import Verif.Proof.Expands
import Verif.Proof.Unused
import Verif.Proof.LL1
import Verif.Proof.Transitions
import Verif.Spec.Compose

/-!
# A grammar inside of another one
-/

set_option linter.unusedSectionVars false

namespace Verif

open Spec

variable {L T : Type} [DecidableEq T] {eps : T} {ps all : List (Production T)}

theorem rhs_of_mem {eps : T} {p : Production T} {x : T} (h : x ∈ p.output) (hx : x ≠ eps) : rhs eps p = p.output := by
  unfold rhs
  rw [if_neg]
  intro e
  rw [e] at h
  exact hx (by simpa using h)

theorem Expands.inv {eps : T} {ps : List (Production T)} {x : T} {w : List T} (h : Expands eps ps x w) :
    ¬ IsNonTerminal ps x ∨ ∃ q ∈ ps, q.input = x ∧ ExpandsAll eps ps (rhs eps q) w := by
  cases h with
  | leaf _ hn => exact .inl hn
  | node q _ hq hw => exact .inr ⟨q, hq, rfl, hw⟩

theorem isTree_inv {eps : T} {ps : List (Production T)} {x : T} {w : List (Token L T)} {n : Node L T}
    (h : IsTree eps ps x w n) :
    (¬ IsNonTerminal ps x ∧ x ≠ eps) ∨ (x = eps ∧ w = [] ∧ n = .mk [] ⟨none, eps⟩) ∨
      ∃ q ∈ ps, q.input = x ∧ ∃ ns, n = .mk ns ⟨none, x⟩ ∧ IsForest eps ps q.output w ns := by
  cases h with
  | leaf t h1 h2 => exact .inl ⟨h1, h2⟩
  | eps => exact .inr (.inl ⟨rfl, rfl, rfl⟩)
  | node q _ ns hq hns => exact .inr (.inr ⟨q, hq, rfl, ns, rfl, hns⟩)

/-- `all` contains `ps`, and the productions added have inputs that do not occur in `ps`. -/
structure Embeds (ps all : List (Production T)) : Prop where
  sub : ∀ r ∈ ps, r ∈ all
  new : ∀ r ∈ all, r ∈ ps ∨ ∀ p ∈ ps, r.input ≠ p.input ∧ r.input ∉ p.output

/-- `x` is not the input of an added production. -/
def Old (ps all : List (Production T)) (x : T) : Prop := ∀ r ∈ all, r.input = x → r ∈ ps

namespace Embeds

theorem old_nt (E : Embeds ps all) {x : T} (hx : IsNonTerminal ps x) : Old ps all x := by
  intro r hr e
  obtain ⟨p, hp, e'⟩ := hx
  exact (E.new r hr).resolve_right fun h => (h p hp).1 (e.trans e'.symm)

theorem old_output (E : Embeds ps all) {p : Production T} (hp : p ∈ ps) {x : T} (hx : x ∈ p.output) :
    Old ps all x := by
  intro r hr e
  exact (E.new r hr).resolve_right fun h => (h p hp).2 (e ▸ hx)

theorem isNonTerminal (E : Embeds ps all) {x : T} (hx : Old ps all x) :
    IsNonTerminal all x ↔ IsNonTerminal ps x :=
  ⟨fun ⟨r, hr, e⟩ => ⟨r, hx r hr e, e⟩, fun ⟨r, hr, e⟩ => ⟨r, E.sub r hr, e⟩⟩

theorem mono (E : Embeds ps all) {l m : List T} (h : Derives eps ps l m) : Derives eps all l m :=
  Derives.mono E.sub h

theorem derives (E : Embeds ps all) {l m : List T} (h : Derives eps all l m) (hl : ∀ x ∈ l, Old ps all x) :
    Derives eps ps l m ∧ ∀ x ∈ m, Old ps all x := by
  induction h with
  | refl a => exact ⟨.refl a, hl⟩
  | step hs _ ih =>
    cases hs with
    | mk u v p hp =>
      have hp' : p ∈ ps := hl p.input (by simp) p hp rfl
      obtain ⟨h1, h2⟩ := ih (by
        intro x hx
        simp only [List.mem_append] at hx
        rcases hx with (hx | hx) | hx
        · exact hl x (by simp [hx])
        · exact E.old_output hp' (rhs_subset hx)
        · exact hl x (by simp [hx]))
      exact ⟨.step (Step.mk u v p hp') h1, h2⟩

theorem nullable (E : Embeds ps all) {x : T} (hx : Old ps all x) : Nullable eps all x ↔ Nullable eps ps x :=
  ⟨fun h => (E.derives h (by simpa using hx)).1, E.mono⟩

theorem canStart (E : Embeds ps all) {x c : T} (hx : Old ps all x)
    (hk : IsNonTerminal ps x ∨ ∃ p ∈ ps, x ∈ p.output) : CanStart eps all x c ↔ CanStart eps ps x c := by
  constructor
  · rintro ⟨⟨_, hn⟩, he, v, hd⟩
    obtain ⟨hd', ho⟩ := E.derives hd (by simpa using hx)
    have hn' : ¬ IsNonTerminal ps c := by rwa [← E.isNonTerminal (ho c (by simp))]
    refine ⟨⟨?_, hn'⟩, he, v, hd'⟩
    rcases mem_output_of_derives hd' (y := c) (by simp) with h | h
    · rw [List.mem_singleton.1 h] at hn' ⊢
      exact hk.resolve_left hn'
    · exact h
  · rintro ⟨⟨⟨r, hr, ha⟩, hn⟩, he, v, hd⟩
    refine ⟨⟨⟨r, E.sub r hr, ha⟩, ?_⟩, he, v, E.mono hd⟩
    rwa [E.isNonTerminal (E.old_output hr ha)]

theorem strNullable (E : Embeds ps all) {l : List T} (hl : ∀ x ∈ l, Old ps all x) :
    StrNullable eps all l ↔ StrNullable eps ps l := by
  unfold StrNullable
  exact forall_congr' fun y => forall_congr' fun hy => E.nullable (hl y hy)

theorem strFirst (E : Embeds ps all) {q : Production T} (hq : q ∈ ps) {l : List T} {a : T}
    (hl : ∀ y ∈ l, y ∈ q.output) : StrFirst eps all l a ↔ StrFirst eps ps l a := by
  unfold StrFirst
  have ho : ∀ y ∈ l, Old ps all y := fun y hy => E.old_output hq (hl y hy)
  constructor
  · rintro ⟨u, y, v, rfl, h1, h2⟩
    exact ⟨u, y, v, rfl, (E.strNullable fun z hz => ho z (by simp [hz])).1 h1,
      (E.canStart (ho y (by simp)) (.inr ⟨q, hq, hl y (by simp)⟩)).1 h2⟩
  · rintro ⟨u, y, v, rfl, h1, h2⟩
    exact ⟨u, y, v, rfl, (E.strNullable fun z hz => ho z (by simp [hz])).2 h1,
      (E.canStart (ho y (by simp)) (.inr ⟨q, hq, hl y (by simp)⟩)).2 h2⟩

theorem sentence (E : Embeds ps all) {x : T} (hx : IsNonTerminal ps x) {w : List T} :
    Sentence eps x all w ↔ Sentence eps x ps w := by
  constructor
  · rintro ⟨hd, hw⟩
    obtain ⟨hd', ho⟩ := E.derives hd (by simpa using E.old_nt hx)
    refine ⟨hd', fun c hc => ⟨⟨?_, ?_⟩, (hw c hc).2⟩⟩
    · rcases mem_output_of_derives hd' hc with h | h
      · exact absurd ⟨hx.choose, E.sub _ hx.choose_spec.1, (List.mem_singleton.1 h) ▸ hx.choose_spec.2⟩ (hw c hc).1.2
      · exact h
    · rw [← E.isNonTerminal (ho c hc)]
      exact (hw c hc).1.2
  · rintro ⟨hd, hw⟩
    refine ⟨E.mono hd, fun c hc => ?_⟩
    obtain ⟨⟨⟨r, hr, hm⟩, hn⟩, he⟩ := hw c hc
    refine ⟨⟨⟨r, E.sub r hr, hm⟩, ?_⟩, he⟩
    rwa [E.isNonTerminal (E.old_output hr hm)]

theorem tree (E : Embeds ps all) {x : T} {w : List (Token L T)} {n : Node L T}
    (h : IsTree eps all x w n) (hx : Old ps all x) : IsTree eps ps x w n := by
  refine IsTree.rec (eps := eps) (ps := all)
    (motive_1 := fun x w n _ => Old ps all x → IsTree eps ps x w n)
    (motive_2 := fun xs w ns _ => (∀ x ∈ xs, Old ps all x) → IsForest eps ps xs w ns) ?_ ?_ ?_ ?_ ?_ h hx
  · intro t h1 h2 ho
    exact .leaf t (fun h => h1 ((E.isNonTerminal ho).2 h)) h2
  · intro _
    exact .eps
  · intro p w ns hp _ ih ho
    have hp' := ho p hp rfl
    exact .node p w ns hp' (ih fun x hx => E.old_output hp' hx)
  · intro _
    exact .nil
  · intro x xs w w' n ns _ _ ih1 ih2 ho
    exact .cons x xs w w' n ns (ih1 (ho x (by simp))) (ih2 fun y hy => ho y (by simp [hy]))

/-- Left recursion of old symbols. -/
theorem leftRec (E : Embeds ps all) {x : T} {v : List T} (hx : Old ps all x) :
    DerivesPlus eps all [x] (x :: v) → DerivesPlus eps ps [x] (x :: v) := by
  rintro ⟨m, hs, hd⟩
  obtain ⟨q, hq, rfl, rfl⟩ := Step.single hs
  have hq' := hx q hq rfl
  exact ⟨_, Step.of_production hq', (E.derives hd fun y hy => E.old_output hq' (rhs_subset hy)).1⟩

theorem notLeftRec (E : Embeds ps all) (h : NotLeftRecursive eps all) : NotLeftRecursive eps ps := by
  rintro x v ⟨m, hs, hd⟩
  obtain ⟨q, hq, rfl, rfl⟩ := Step.single hs
  exact h _ v ⟨_, Step.of_production (E.sub q hq), E.mono hd⟩

/-- No other symbol of `ps` than `a` is used by the other productions. -/
def Uses (ps all : List (Production T)) (a : T) : Prop :=
  ∀ r ∈ all, r ∈ ps ∨ ∀ y ∈ r.output, IsNonTerminal ps y → y = a

/-- If the grammar is end-marked and used only through its initial symbol, nothing changes in what can follow
its other symbols. -/
theorem followRule (E : Embeds ps all) {a : T} (hu : Uses ps all a) {e : T} (hm : EndMarked eps a e ps) {x c : T}
    (hx : IsNonTerminal ps x) (hxa : x ≠ a) :
    FollowRule eps all x c ↔ FollowRule eps ps x c := by
  have hold : ∀ {r : Production T}, r ∈ all → ∀ {y : T}, y ∈ r.output → IsNonTerminal ps y →
      y ≠ a → r ∈ ps := fun hr _ hy hn hya => (hu _ hr).resolve_right fun h => hya (h _ hy hn)
  have hend : ∀ {q : Production T} {u t : List T} {y : T}, q ∈ ps → rhs eps q = u ++ y :: t → IsNonTerminal ps y →
      StrNullable eps ps t → q.input ≠ a := by
    intro q u t y hq hr hy ht hqa
    obtain ⟨z, hz, _⟩ := hm.initial_ends q hq hqa
    have ho : q.output = u ++ y :: t := output_of_rhs hr
    rw [hz] at ho
    rcases List.eq_nil_or_concat t with rfl | ⟨t', y', rfl⟩
    · have := List.append_inj_right' ho (by simp)
      simp only [List.cons.injEq, and_true] at this
      exact hm.terminal (this ▸ hy)
    · have he : e = y' := by
        have := congrArg List.getLast? ho
        simpa [List.getLast?_append, List.getLast?_cons] using this
      have := ht y' (by simp)
      rw [← he] at this
      have h3 := Derives.terminal_eq hm.terminal this
      simp at h3
  constructor
  · intro h
    induction h with
    | @first q u t x c hp hr hx' ht hc =>
      have hsub : ∀ y ∈ u ++ x :: t, y ∈ q.output := fun y hy => rhs_subset (by rw [hr]; exact hy)
      have hq := hold hp (hsub x (by simp)) hx hxa
      exact .first hq hr hx ht ((E.strFirst hq fun y hy => hsub y (by simp [hy])).1 hc)
    | @last q u t x c hp hr hx' ht hfol ih =>
      have hsub : ∀ y ∈ u ++ x :: t, y ∈ q.output := fun y hy => rhs_subset (by rw [hr]; exact hy)
      have hq := hold hp (hsub x (by simp)) hx hxa
      have ht' := (E.strNullable fun y hy => E.old_output hq (hsub y (by simp [hy]))).1 ht
      exact .last hq hr hx ht' (ih ⟨q, hq, rfl⟩ (hend hq hr hx ht'))
  · intro h
    clear hxa hx
    induction h with
    | @first q u t x c hp hr hx ht hc =>
      have hsub : ∀ y ∈ u ++ x :: t, y ∈ q.output := fun y hy => rhs_subset (by rw [hr]; exact hy)
      exact .first (E.sub q hp) hr ((E.isNonTerminal (E.old_nt hx)).2 hx) ht
        ((E.strFirst hp fun y hy => hsub y (by simp [hy])).2 hc)
    | @last q u t x c hp hr hx ht _ ih =>
      have hsub : ∀ y ∈ u ++ x :: t, y ∈ q.output := fun y hy => rhs_subset (by rw [hr]; exact hy)
      exact .last (E.sub q hp) hr ((E.isNonTerminal (E.old_nt hx)).2 hx)
        ((E.strNullable fun y hy => E.old_output hp (hsub y (by simp [hy]))).2 ht) ih

theorem lead (E : Embeds ps all) {a : T} (hu : Uses ps all a) {e : T} (hm : EndMarked eps a e ps) {q : Production T}
    (hq : q ∈ ps) (c : T) :
    Transitions.Lead eps all q c ↔ Transitions.Lead eps ps q c := by
  unfold Transitions.Lead
  refine or_congr (and_congr_right fun hr => ?_) ?_
  · refine E.followRule hu hm ⟨q, hq, rfl⟩ ?_
    intro hqa
    obtain ⟨z, hz, _⟩ := hm.initial_ends q hq hqa
    rw [rhs_of_mem (x := e) (by rw [hz]; simp) hm.ne_eps, hz] at hr
    simp at hr
  · refine exists_congr fun x => exists_congr fun t => and_congr_right fun hr => ?_
    have hx : x ∈ q.output := rhs_subset (eps := eps) (by rw [hr]; simp)
    have hxo := E.old_output hq hx
    refine or_congr (E.canStart hxo (.inr ⟨q, hq, hx⟩)) ?_
    rw [E.nullable hxo]
    have hxa : x ≠ a := fun h => hm.initial_once q hq (h ▸ hx)
    refine and_congr_right fun _ => ⟨fun h => ?_, fun h => ?_⟩
    · exact (E.followRule hu hm ((E.isNonTerminal hxo).1 (FollowRule.isNonTerminal' h)) hxa).1 h
    · exact (E.followRule hu hm (FollowRule.isNonTerminal' h) hxa).2 h

theorem tree_mono (E : Embeds ps all) {x : T} {w : List (Token L T)} {n : Node L T}
    (h : IsTree eps ps x w n) (hx : Old ps all x) : IsTree eps all x w n := by
  refine IsTree.rec (eps := eps) (ps := ps)
    (motive_1 := fun x w n _ => Old ps all x → IsTree eps all x w n)
    (motive_2 := fun xs w ns _ => (∀ x ∈ xs, Old ps all x) → IsForest eps all xs w ns) ?_ ?_ ?_ ?_ ?_ h hx
  · intro t h1 h2 ho
    exact .leaf t (fun h => h1 ((E.isNonTerminal ho).1 h)) h2
  · intro _
    exact .eps
  · intro p w ns hp _ ih ho
    exact .node p w ns (E.sub p hp) (ih fun x hx => E.old_output hp hx)
  · intro _
    exact .nil
  · intro x xs w w' n ns _ _ ih1 ih2 ho
    exact .cons x xs w w' n ns (ih1 (ho x (by simp))) (ih2 fun y hy => ho y (by simp [hy]))

theorem augment (E : Embeds ps all) {x start stop : T} (hf : Fresh eps all start stop) :
    Embeds ps (Spec.augment x start stop all) where
  sub r hr := mem_augment.2 (.inr (E.sub r hr))
  new r hr := by
    rcases mem_augment.1 hr with rfl | hr
    · exact .inr fun p hp => ⟨(hf.start_unused p (E.sub p hp)).1.symm, (hf.start_unused p (E.sub p hp)).2⟩
    · exact E.new r hr

theorem Uses.augment (E : Embeds ps all) {a x start stop : T} (hf : Fresh eps all start stop)
    (hu : Uses ps all a) (hx : IsNonTerminal ps x → x = a) : Uses ps (Spec.augment x start stop all) a := by
  intro r hr
  rcases mem_augment.1 hr with rfl | hr
  · refine .inr fun y hy hn => ?_
    simp only [List.mem_cons, List.not_mem_nil, or_false] at hy
    rcases hy with rfl | rfl
    · exact hx hn
    · obtain ⟨p, hp, e⟩ := hn
      exact absurd e (hf.stop_unused p (E.sub p hp)).1
  · exact hu r hr

end Embeds

theorem Expands.terminal {eps : T} {ps : List (Production T)} {x : T} {w : List T} (h : Expands eps ps x w)
    (hx : ¬ IsNonTerminal ps x) : w = [x] := by
  cases h with
  | leaf _ _ => rfl
  | node q _ hq _ => exact absurd ⟨q, hq, rfl⟩ hx

/-- The initial symbol of an end-marked grammar cannot be empty. -/
theorem not_nullable_of_endMarked {eps a e : T} {ps : List (Production T)} (hm : EndMarked eps a e ps)
    (ha : IsNonTerminal ps a) : ¬ Nullable eps ps a := by
  intro h
  have hs : Sentence eps a ps [] := ⟨h, by simp⟩
  rw [sentence_iff_expands ha] at hs
  rcases hs.inv with hn | ⟨q, hq, hx, hw⟩
  · exact hn ha
  · obtain ⟨u, hu, _⟩ := hm.initial_ends q hq hx
    rw [rhs_of_mem (x := e) (by rw [hu]; simp) hm.ne_eps, hu] at hw
    obtain ⟨w1, w2, e0, _, h2⟩ := hw.split
    have := (ExpandsAll.single.1 h2).terminal hm.terminal
    rw [this] at e0
    simp at e0

/-! ## One grammar after another -/

namespace Chain

variable {start a b : T} {qs : List (Production T)}

theorem mem_iff {r : Production T} :
    r ∈ chain start a b ps qs ↔ r = ⟨start, [a, b]⟩ ∨ r ∈ ps ∨ r ∈ qs := by
  simp [chain]

theorem left (ha : Apart eps start a b ps qs) : Embeds ps (chain start a b ps qs) where
  sub r hr := mem_iff.2 (.inr (.inl hr))
  new r hr := by
    rcases mem_iff.1 hr with rfl | hr | hr
    · exact .inr fun p hp => ⟨(ha.new_left p hp).1.symm, (ha.new_left p hp).2⟩
    · exact .inl hr
    · exact .inr fun p hp => ⟨(ha.apart p hp r hr).1.symm, (ha.apart p hp r hr).2.2⟩

theorem right (ha : Apart eps start a b ps qs) : Embeds qs (chain start a b ps qs) where
  sub r hr := mem_iff.2 (.inr (.inr hr))
  new r hr := by
    rcases mem_iff.1 hr with rfl | hr | hr
    · exact .inr fun p hp => ⟨(ha.new_right p hp).1.symm, (ha.new_right p hp).2⟩
    · exact .inr fun q hq => ⟨(ha.apart r hr q hq).1, (ha.apart r hr q hq).2.1⟩
    · exact .inl hr

theorem wellFormed (ha : Apart eps start a b ps qs) (h1 : WellFormed eps ps) (h2 : WellFormed eps qs) :
    WellFormed eps (chain start a b ps qs) := by
  intro r hr
  rcases mem_iff.1 hr with rfl | hr | hr
  · refine ⟨ha.start_ne_eps, by simp, fun h => ?_⟩
    obtain ⟨p, hp, ea⟩ := ha.left
    obtain ⟨q, hq, eb⟩ := ha.right
    simp only [List.mem_cons, List.not_mem_nil, or_false] at h
    rcases h with rfl | rfl
    · exact absurd ea (h1 p hp).1
    · exact absurd eb (h2 q hq).1
  · exact h1 r hr
  · exact h2 r hr

theorem start_only (ha : Apart eps start a b ps qs) {r : Production T} (hr : r ∈ chain start a b ps qs)
    (e : r.input = start) : r = ⟨start, [a, b]⟩ := by
  rcases mem_iff.1 hr with h | h | h
  · exact h
  · exact absurd e (ha.new_left r h).1
  · exact absurd e (ha.new_right r h).1

theorem isNonTerminal_iff {x : T} :
    IsNonTerminal (chain start a b ps qs) x ↔ x = start ∨ IsNonTerminal ps x ∨ IsNonTerminal qs x := by
  unfold IsNonTerminal
  constructor
  · rintro ⟨r, hr, rfl⟩
    rcases mem_iff.1 hr with rfl | h | h
    · exact .inl rfl
    · exact .inr (.inl ⟨r, h, rfl⟩)
    · exact .inr (.inr ⟨r, h, rfl⟩)
  · rintro (rfl | ⟨r, h, rfl⟩ | ⟨r, h, rfl⟩)
    · exact ⟨_, mem_iff.2 (.inl rfl), rfl⟩
    · exact ⟨r, mem_iff.2 (.inr (.inl h)), rfl⟩
    · exact ⟨r, mem_iff.2 (.inr (.inr h)), rfl⟩

theorem rhs_start (ha : Apart eps start a b ps qs) (h1 : WellFormed eps ps) :
    rhs eps ⟨start, [a, b]⟩ = [a, b] := by
  apply rhs_of_mem (x := a) (by simp)
  obtain ⟨p, hp, rfl⟩ := ha.left
  exact (h1 p hp).1

theorem sentence_iff (ha : Apart eps start a b ps qs) (h1 : WellFormed eps ps) {w : List T} :
    Sentence eps start (chain start a b ps qs) w ↔
      ∃ u v, w = u ++ v ∧ Sentence eps a ps u ∧ Sentence eps b qs v := by
  have hns : IsNonTerminal (chain start a b ps qs) start := isNonTerminal_iff.2 (.inl rfl)
  have hna : IsNonTerminal (chain start a b ps qs) a := isNonTerminal_iff.2 (.inr (.inl ha.left))
  have hnb : IsNonTerminal (chain start a b ps qs) b := isNonTerminal_iff.2 (.inr (.inr ha.right))
  rw [sentence_iff_expands hns]
  constructor
  · intro h
    rcases h.inv with hn | ⟨q, hq, hx, hw⟩
    · exact absurd hns hn
    · have := start_only ha hq hx
      subst this
      rw [rhs_start ha h1] at hw
      cases hw with
      | cons _ _ u v k1 k2 =>
        refine ⟨u, v, rfl, ?_, ?_⟩
        · rw [← (left ha).sentence ha.left, sentence_iff_expands hna]; exact k1
        · rw [← (right ha).sentence ha.right, sentence_iff_expands hnb]; exact ExpandsAll.single.1 k2
  · rintro ⟨u, v, rfl, k1, k2⟩
    rw [← (left ha).sentence ha.left, sentence_iff_expands hna] at k1
    rw [← (right ha).sentence ha.right, sentence_iff_expands hnb] at k2
    refine .node ⟨start, [a, b]⟩ (u ++ v) (mem_iff.2 (.inl rfl)) ?_
    rw [rhs_start ha h1]
    exact .cons a [b] u v k1 (ExpandsAll.single.2 k2)

theorem tree (ha : Apart eps start a b ps qs) {w : List (Token L T)} {n : Node L T}
    (h : IsTree eps (chain start a b ps qs) start w n) :
    ∃ u v na nb, w = u ++ v ∧ n = .mk [na, nb] ⟨none, start⟩ ∧ IsTree eps ps a u na ∧ IsTree eps qs b v nb := by
  rcases isTree_inv h with ⟨hn, _⟩ | ⟨hx, _⟩ | ⟨q, hq, hx, ns, rfl, hns⟩
  · exact absurd (isNonTerminal_iff.2 (.inl rfl)) hn
  · exact absurd hx ha.start_ne_eps
  · have := start_only ha hq hx
    subst this
    cases hns with
    | cons _ _ u v na ns k1 k2 =>
      cases k2 with
      | cons _ _ v1 v2 nb ns k2 k3 =>
        cases k3
        exact ⟨u, v1, na, nb, by simp, rfl, (left ha).tree k1 ((left ha).old_nt ha.left),
          (right ha).tree k2 ((right ha).old_nt ha.right)⟩

theorem ne (ha : Apart eps start a b ps qs) : a ≠ start ∧ b ≠ start ∧ a ≠ b := by
  obtain ⟨p, hp, ea⟩ := ha.left
  obtain ⟨q, hq, eb⟩ := ha.right
  refine ⟨ea ▸ (ha.new_left p hp).1, eb ▸ (ha.new_right q hq).1, ?_⟩
  rw [← ea, ← eb]
  exact (ha.apart p hp q hq).1

theorem notLeftRecursive (ha : Apart eps start a b ps qs) (h1 : WellFormed eps ps) :
    NotLeftRecursive eps (chain start a b ps qs) ↔ NotLeftRecursive eps ps ∧ NotLeftRecursive eps qs := by
  refine ⟨fun h => ⟨(left ha).notLeftRec h, (right ha).notLeftRec h⟩, ?_⟩
  rintro ⟨k1, k2⟩ x v h
  obtain ⟨m, hs, hd⟩ := id h
  obtain ⟨q, hq, rfl, rfl⟩ := Step.single hs
  rcases mem_iff.1 hq with rfl | hq | hq
  · rw [rhs_start ha h1] at hd
    have : ∀ y ∈ start :: v, y ∈ [a, b] ∨ ∃ r ∈ chain start a b ps qs, y ∈ r.output :=
      fun y hy => mem_output_of_derives hd hy
    rcases this start (by simp) with hm | ⟨r, hr, hm⟩
    · simp only [List.mem_cons, List.not_mem_nil, or_false] at hm
      rcases hm with hm | hm
      · exact (ne ha).1 hm.symm
      · exact (ne ha).2.1 hm.symm
    · rcases mem_iff.1 hr with rfl | hr | hr
      · simp only [List.mem_cons, List.not_mem_nil, or_false] at hm
        rcases hm with hm | hm
        · exact (ne ha).1 hm.symm
        · exact (ne ha).2.1 hm.symm
      · exact (ha.new_left r hr).2 hm
      · exact (ha.new_right r hr).2 hm
  · exact k1 _ v ((left ha).leftRec ((left ha).old_nt ⟨q, hq, rfl⟩) h)
  · exact k2 _ v ((right ha).leftRec ((right ha).old_nt ⟨q, hq, rfl⟩) h)

theorem noAdjacentRepeat (ha : Apart eps start a b ps qs) :
    NoAdjacentRepeat (chain start a b ps qs) ↔ NoAdjacentRepeat ps ∧ NoAdjacentRepeat qs := by
  constructor
  · intro h
    constructor
    · intro p hp u x v e hx
      exact h p (mem_iff.2 (.inr (.inl hp))) u x v e (isNonTerminal_iff.2 (.inr (.inl hx)))
    · intro p hp u x v e hx
      exact h p (mem_iff.2 (.inr (.inr hp))) u x v e (isNonTerminal_iff.2 (.inr (.inr hx)))
  · rintro ⟨k1, k2⟩ p hp u x v e hx
    rcases mem_iff.1 hp with rfl | hp | hp
    · simp only at e
      cases u with
      | nil =>
        simp only [List.nil_append, List.cons.injEq] at e
        exact (ne ha).2.2 (e.1.trans e.2.1.symm)
      | cons y u =>
        have := congrArg List.length e
        simp only [List.length_append, List.length_cons, List.length_nil] at this
        omega
    · exact k1 p hp u x v e (((left ha).isNonTerminal ((left ha).old_output hp (by rw [e]; simp))).1 hx)
    · exact k2 p hp u x v e (((right ha).isNonTerminal ((right ha).old_output hp (by rw [e]; simp))).1 hx)

/-- The second grammar is at the end, so nothing changes for it. -/
theorem unused_right (ha : Apart eps start a b ps qs) : Unused b qs (⟨start, [a, b]⟩ :: ps) := by
  intro u hu
  rcases List.mem_cons.1 hu with rfl | hu
  · refine ⟨(ne ha).2.1.symm, fun q hq => ⟨(ha.new_right q hq).1, (ha.new_right q hq).2⟩, ?_⟩
    intro v y w e hy
    simp only at e
    refine ⟨?_, ?_⟩
    · cases v with
      | nil =>
        simp only [List.nil_append, List.cons.injEq] at e
        exfalso
        obtain ⟨p, hp, ea⟩ := ha.left
        obtain ⟨q, hq, ey⟩ := hy
        exact (ha.apart p hp q hq).1 (ea.trans (e.1.trans ey.symm))
      | cons _ v =>
        cases v with
        | nil => simp at e; exact e.2.2
        | cons _ v => simp at e
    · intro q hq
      rcases List.mem_cons.1 hq with rfl | hq
      · simp only [List.mem_cons, List.not_mem_nil, or_false, not_or]
        exact ⟨(ne ha).1.symm, (ne ha).2.1.symm⟩
      · exact (ha.new_left q hq).2
  · refine ⟨?_, fun q hq => ⟨(ha.apart u hu q hq).1.symm, (ha.apart u hu q hq).2.1⟩, ?_⟩
    · intro e0
      obtain ⟨q, hq, e⟩ := ha.right
      exact (ha.apart u hu q hq).1 (e0.trans e.symm)
    · rintro v y w e ⟨q, hq, rfl⟩
      exact absurd (by rw [e]; simp) (ha.apart u hu q hq).2.2

theorem mem_right {r : Production T} :
    r ∈ chain start a b ps qs ↔ r ∈ qs ++ (⟨start, [a, b]⟩ :: ps) := by
  rw [mem_iff]
  simp only [List.mem_append, List.mem_cons]
  tauto

theorem uses_left (ha : Apart eps start a b ps qs) : Embeds.Uses ps (chain start a b ps qs) a := by
  intro r hr
  rcases mem_iff.1 hr with rfl | hr | hr
  · refine .inr ?_
    rintro y hy ⟨p, hp, rfl⟩
    simp only [List.mem_cons, List.not_mem_nil, or_false] at hy
    rcases hy with hy | hy
    · exact hy
    · obtain ⟨q, hq, e⟩ := ha.right
      exact absurd (hy.trans e.symm) (ha.apart p hp q hq).1
  · exact .inl hr
  · refine .inr ?_
    rintro y hy ⟨p, hp, rfl⟩
    exact absurd hy (ha.apart p hp r hr).2.1

theorem uses_right (ha : Apart eps start a b ps qs) : Embeds.Uses qs (chain start a b ps qs) b := by
  intro r hr
  rcases mem_iff.1 hr with rfl | hr | hr
  · refine .inr ?_
    rintro y hy ⟨q, hq, rfl⟩
    simp only [List.mem_cons, List.not_mem_nil, or_false] at hy
    rcases hy with hy | hy
    · obtain ⟨p, hp, e⟩ := ha.left
      exact absurd (e.trans hy.symm) (ha.apart p hp q hq).1
    · exact hy
  · refine .inr ?_
    rintro y hy ⟨q, hq, rfl⟩
    exact absurd hy (ha.apart r hr q hq).2.2
  · exact .inl hr

theorem tree_mk (ha : Apart eps start a b ps qs) {u v : List (Token L T)} {na nb : Node L T}
    (h1 : IsTree eps ps a u na) (h2 : IsTree eps qs b v nb) :
    IsTree eps (chain start a b ps qs) start (u ++ v) (.mk [na, nb] ⟨none, start⟩) := by
  refine .node ⟨start, [a, b]⟩ _ _ (mem_iff.2 (.inl rfl)) ?_
  have := IsForest.cons b [] v [] nb [] ((right ha).tree_mono h2 ((right ha).old_nt ha.right)) .nil
  rw [List.append_nil] at this
  exact .cons a [b] u v na [nb] ((left ha).tree_mono h1 ((left ha).old_nt ha.left)) this

end Chain

/-! ## A grammar repeated -/

namespace Repeated

variable {many a : T}

theorem mem_iff {r : Production T} :
    r ∈ repeated eps many a ps ↔ r = ⟨many, [a, many]⟩ ∨ r = ⟨many, [eps]⟩ ∨ r ∈ ps := by
  simp [repeated]

variable (hn : NewSymbol eps ps many) (ha : IsNonTerminal ps a)

include hn in
theorem embeds : Embeds ps (repeated eps many a ps) where
  sub r hr := mem_iff.2 (.inr (.inr hr))
  new r hr := by
    rcases mem_iff.1 hr with rfl | rfl | hr
    · exact .inr fun p hp => ⟨(hn.2 p hp).1.symm, (hn.2 p hp).2⟩
    · exact .inr fun p hp => ⟨(hn.2 p hp).1.symm, (hn.2 p hp).2⟩
    · exact .inl hr

theorem isNonTerminal_iff {x : T} : IsNonTerminal (repeated eps many a ps) x ↔ x = many ∨ IsNonTerminal ps x := by
  unfold IsNonTerminal
  constructor
  · rintro ⟨r, hr, rfl⟩
    rcases mem_iff.1 hr with rfl | rfl | h
    · exact .inl rfl
    · exact .inl rfl
    · exact .inr ⟨r, h, rfl⟩
  · rintro (rfl | ⟨r, h, rfl⟩)
    · exact ⟨_, mem_iff.2 (.inl rfl), rfl⟩
    · exact ⟨r, mem_iff.2 (.inr (.inr h)), rfl⟩

include hn in
theorem rhs_many : rhs eps ⟨many, [a, many]⟩ = [a, many] := rhs_of_mem (x := many) (by simp) hn.1

include hn ha in
theorem wellFormed (h1 : WellFormed eps ps) : WellFormed eps (repeated eps many a ps) := by
  intro r hr
  rcases mem_iff.1 hr with rfl | rfl | hr
  · refine ⟨hn.1, by simp, fun h => ?_⟩
    obtain ⟨p, hp, ea⟩ := ha
    simp only [List.mem_cons, List.not_mem_nil, or_false] at h
    rcases h with rfl | h
    · exact absurd ea (h1 p hp).1
    · exact absurd h.symm hn.1
  · exact ⟨hn.1, by simp, by simp⟩
  · exact h1 r hr

include hn ha in
theorem ne : a ≠ many := by
  obtain ⟨p, hp, rfl⟩ := ha
  exact (hn.2 p hp).1

include hn in
theorem many_only {r : Production T} (hr : r ∈ repeated eps many a ps) (e : r.input = many) :
    r = ⟨many, [a, many]⟩ ∨ r = ⟨many, [eps]⟩ := by
  rcases mem_iff.1 hr with h | h | h
  · exact .inl h
  · exact .inr h
  · exact absurd e (hn.2 r h).1

include hn in
theorem expands_iff {w : List T} : Expands eps (repeated eps many a ps) many w ↔
    ∃ l : List (List T), w = l.flatten ∧ ∀ u ∈ l, Expands eps (repeated eps many a ps) a u := by
  constructor
  · intro h
    refine Expands.rec (eps := eps) (ps := repeated eps many a ps)
      (motive_1 := fun x w _ => x = many → ∃ l : List (List T), w = l.flatten ∧
        ∀ u ∈ l, Expands eps (repeated eps many a ps) a u)
      (motive_2 := fun xs w _ => (xs = [a, many] ∨ xs = [many]) → ∃ u, ∃ l : List (List T), w = u ++ l.flatten ∧
        (xs = [a, many] → Expands eps (repeated eps many a ps) a u) ∧ (xs = [many] → u = []) ∧
        ∀ u ∈ l, Expands eps (repeated eps many a ps) a u) ?_ ?_ ?_ ?_ h rfl
    · rintro x h1 _ rfl
      exact absurd (isNonTerminal_iff.2 (.inl rfl)) h1
    · intro p w hp h1 ih e
      rcases many_only hn hp e with rfl | rfl
      · obtain ⟨u, l, rfl, k1, _, k3⟩ := ih (.inl (rhs_many hn))
        exact ⟨u :: l, by simp, fun v hv => by
          rcases List.mem_cons.1 hv with rfl | hv
          · exact k1 (rhs_many hn)
          · exact k3 v hv⟩
      · simp only [rhs, if_true] at h1
        cases h1
        exact ⟨[], by simp, by simp⟩
    · simp
    · intro x xs w w' h1 h2 ih1 ih2 hx
      rcases hx with hx | hx
      · simp only [List.cons.injEq] at hx
        obtain ⟨rfl, rfl⟩ := hx
        obtain ⟨u, l, rfl, _, k2, k3⟩ := ih2 (.inr rfl)
        refine ⟨w, l, by simp [k2 rfl], fun _ => h1, fun h => ?_, k3⟩
        simp at h
      · simp only [List.cons.injEq] at hx
        obtain ⟨rfl, rfl⟩ := hx
        cases h2
        obtain ⟨l, rfl, k⟩ := ih1 rfl
        exact ⟨[], l, by simp, by simp, by simp, k⟩
  · rintro ⟨l, rfl, hl⟩
    induction l with
    | nil =>
      exact .node ⟨many, [eps]⟩ _ (mem_iff.2 (.inr (.inl rfl))) (by simp only [rhs, if_true]; exact .nil)
    | cons u l ih =>
      refine .node ⟨many, [a, many]⟩ _ (mem_iff.2 (.inl rfl)) ?_
      rw [rhs_many hn, List.flatten_cons]
      exact .cons a [many] u _ (hl u (by simp)) (ExpandsAll.single.2 (ih fun v hv => hl v (by simp [hv])))

include hn ha in
theorem sentence_iff {w : List T} : Sentence eps many (repeated eps many a ps) w ↔
    ∃ l : List (List T), w = l.flatten ∧ ∀ u ∈ l, Sentence eps a ps u := by
  rw [sentence_iff_expands (isNonTerminal_iff.2 (.inl rfl)), expands_iff hn]
  have : ∀ u, Expands eps (repeated eps many a ps) a u ↔ Sentence eps a ps u := by
    intro u
    rw [← (embeds hn (a := a)).sentence ha, sentence_iff_expands (isNonTerminal_iff.2 (.inr ha))]
  simp only [this]

include hn ha in
theorem tree (h1 : WellFormed eps ps) {w : List (Token L T)} {n : Node L T} (h : IsTree eps (repeated eps many a ps) many w n) :
    ∃ (l : List (List (Token L T))) (ns : List (Node L T)), w = l.flatten ∧ n = manyTree eps many ns ∧
      List.Forall₂ (fun u n => IsTree eps ps a u n) l ns := by
  have E := embeds hn (a := a)
  refine IsTree.rec (eps := eps) (ps := repeated eps many a ps)
    (motive_1 := fun x w n _ => x = many → ∃ (l : List (List (Token L T))) (ns : List (Node L T)),
      w = l.flatten ∧ n = manyTree eps many ns ∧ List.Forall₂ (fun u n => IsTree eps ps a u n) l ns)
    (motive_2 := fun xs w ms _ =>
      (xs = [a, many] → ∃ u m, ∃ (l : List (List (Token L T))) (ns : List (Node L T)),
        w = u ++ l.flatten ∧ ms = [m, manyTree eps many ns] ∧ IsTree eps ps a u m ∧
        List.Forall₂ (fun u n => IsTree eps ps a u n) l ns) ∧
      (xs = [many] → ∃ (l : List (List (Token L T))) (ns : List (Node L T)),
        w = l.flatten ∧ ms = [manyTree eps many ns] ∧ List.Forall₂ (fun u n => IsTree eps ps a u n) l ns))
    ?_ ?_ ?_ ?_ ?_ h rfl
  · intro t h2 _ e
    exact absurd (isNonTerminal_iff.2 (.inl e)) h2
  · intro e
    exact absurd e.symm hn.1
  · intro p w ms hp hf ih e
    rcases many_only hn hp e with rfl | rfl
    · obtain ⟨u, m, l, ns, rfl, rfl, k1, k2⟩ := ih.1 rfl
      exact ⟨u :: l, m :: ns, by simp, rfl, .cons k1 k2⟩
    · cases hf with
      | cons _ _ w1 w2 m ms k1 k2 =>
        cases k2
        rcases isTree_inv k1 with ⟨_, h2⟩ | ⟨_, rfl, rfl⟩ | ⟨q, hq, hz, _⟩
        · exact absurd rfl h2
        · exact ⟨[], [], by simp, rfl, .nil⟩
        · exfalso
          rcases mem_iff.1 hq with rfl | rfl | hq
          · exact hn.1 hz
          · exact hn.1 hz
          · exact (h1 q hq).1 hz
  · simp
  · intro x xs w w' m ms h1 h2 ih1 ih2
    constructor
    · intro hx
      simp only [List.cons.injEq] at hx
      obtain ⟨rfl, rfl⟩ := hx
      obtain ⟨l, ns, rfl, rfl, k⟩ := ih2.2 rfl
      exact ⟨w, m, l, ns, rfl, rfl, E.tree h1 (E.old_nt ha), k⟩
    · intro hx
      simp only [List.cons.injEq] at hx
      obtain ⟨rfl, rfl⟩ := hx
      cases h2
      obtain ⟨l, ns, rfl, rfl, k⟩ := ih1 rfl
      exact ⟨l, ns, by simp, rfl, k⟩

include hn ha in
theorem notLeftRecursive : NotLeftRecursive eps (repeated eps many a ps) ↔
    NotLeftRecursive eps ps ∧ ¬ Nullable eps ps a := by
  have E := embeds hn (a := a)
  have hoa := E.old_nt ha
  constructor
  · intro h
    refine ⟨E.notLeftRec h, fun hnul => ?_⟩
    refine h many [] ⟨[a, many], ?_, ?_⟩
    · have := Step.of_production (eps := eps) (mem_iff.2 (.inl rfl) : (⟨many, [a, many]⟩ : Production T) ∈ repeated eps many a ps)
      rwa [rhs_many hn] at this
    · exact Derives.append (a := [a]) (a' := []) (E.mono hnul) (.refl [many])
  · rintro ⟨k1, k2⟩ x v h
    obtain ⟨m, hs, hd⟩ := id h
    obtain ⟨q, hq, rfl, rfl⟩ := Step.single hs
    rcases mem_iff.1 hq with rfl | rfl | hq
    · rw [rhs_many hn] at hd
      obtain ⟨c1, c2, e, d1, _⟩ := hd.cons_split
      obtain ⟨d1', ho⟩ := E.derives d1 (by simpa using hoa)
      cases c1 with
      | nil => exact k2 d1'
      | cons y c1 =>
        simp only [List.cons_append, List.cons.injEq] at e
        have := ho y (by simp) ⟨many, [eps]⟩ (mem_iff.2 (.inr (.inl rfl))) e.1
        exact (hn.2 _ this).1 rfl
    · simp only [rhs, if_true] at hd
      have := hd.nil_eq
      simp at this
    · exact k1 _ v (E.leftRec (E.old_nt ⟨q, hq, rfl⟩) h)

include hn ha in
theorem noAdjacentRepeat : NoAdjacentRepeat (repeated eps many a ps) ↔ NoAdjacentRepeat ps := by
  have E := embeds hn (a := a)
  constructor
  · intro h p hp u x v e hx
    exact h p (E.sub p hp) u x v e (isNonTerminal_iff.2 (.inr hx))
  · intro h p hp u x v e hx
    rcases mem_iff.1 hp with rfl | rfl | hp
    · simp only at e
      cases u with
      | nil =>
        simp only [List.nil_append, List.cons.injEq] at e
        exact ne hn ha (e.1.trans e.2.1.symm)
      | cons y u =>
        have := congrArg List.length e
        simp only [List.length_append, List.length_cons, List.length_nil] at this
        omega
    · have := congrArg List.length e
      simp only [List.length_append, List.length_cons, List.length_nil] at this
      omega
    · exact h p hp u x v e ((E.isNonTerminal (E.old_output hp (by rw [e]; simp))).1 hx)

include hn ha in
theorem uses (h1 : WellFormed eps ps) : Embeds.Uses ps (repeated eps many a ps) a := by
  intro r hr
  rcases mem_iff.1 hr with rfl | rfl | hr
  · refine .inr ?_
    rintro y hy ⟨p, hp, rfl⟩
    simp only [List.mem_cons, List.not_mem_nil, or_false] at hy
    rcases hy with hy | hy
    · exact hy
    · exact absurd hy (hn.2 p hp).1
  · refine .inr ?_
    rintro y hy ⟨p, hp, rfl⟩
    simp only [List.mem_cons, List.not_mem_nil, or_false] at hy
    exact absurd hy (h1 p hp).1
  · exact .inl hr

include hn ha in
theorem tree_mk {l : List (List (Token L T))} {ns : List (Node L T)}
    (h : List.Forall₂ (fun u n => IsTree eps ps a u n) l ns) :
    IsTree eps (repeated eps many a ps) many l.flatten (manyTree eps many ns) := by
  have E := embeds hn (a := a)
  induction h with
  | nil =>
    refine .node ⟨many, [eps]⟩ _ _ (mem_iff.2 (.inr (.inl rfl))) ?_
    have := IsForest.cons (L := L) (eps := eps) (ps := repeated eps many a ps) eps [] [] [] (.mk [] ⟨none, eps⟩) [] .eps .nil
    simpa using this
  | @cons u n l ns h1 _ ih =>
    refine .node ⟨many, [a, many]⟩ _ _ (mem_iff.2 (.inl rfl)) ?_
    have := IsForest.cons many [] _ [] _ [] ih .nil
    rw [List.append_nil] at this
    rw [List.flatten_cons]
    exact .cons a [many] u _ n [_] (E.tree_mono h1 (E.old_nt ha)) this

include hn ha in
/-- With an end marker behind, only the end marker can follow `many`. -/
theorem followRule_many (h1 : WellFormed eps ps) {start stop : T}
    (hf : Fresh eps (repeated eps many a ps) start stop) {c : T}
    (h : FollowRule eps (Spec.augment many start stop (repeated eps many a ps)) many c) : c = stop := by
  have hstart : rhs eps ⟨start, [many, stop]⟩ = [many, stop] := rhs_of_mem (x := stop) (by simp) hf.stop_ne_eps
  have hne : many ≠ start := (hf.start_unused ⟨many, [eps]⟩ (mem_iff.2 (.inr (.inl rfl)))).1
  have hns : many ≠ stop := (hf.stop_unused ⟨many, [eps]⟩ (mem_iff.2 (.inr (.inl rfl)))).1
  have hterm : ¬ IsNonTerminal (Spec.augment many start stop (repeated eps many a ps)) stop := hf.stop_terminal
  have hocc : ∀ q ∈ Spec.augment many start stop (repeated eps many a ps), ∀ u t, rhs eps q = u ++ many :: t →
      (t = [stop] ∨ (t = [] ∧ q.input = many)) := by
    intro q hq u t hr
    have ho : q.output = u ++ many :: t := output_of_rhs hr
    rcases mem_augment.1 hq with rfl | hq
    · left
      cases u with
      | nil => simpa using ho.symm
      | cons y u =>
        exfalso
        simp only [List.cons_append, List.cons.injEq] at ho
        have : many ∈ [stop] := by rw [ho.2]; simp
        exact hns (by simpa using this)
    · rcases mem_iff.1 hq with rfl | rfl | hq
      · right
        refine ⟨?_, rfl⟩
        cases u with
        | nil => exact absurd (by simpa using ho : a = many ∧ _).1 (ne hn ha)
        | cons y u =>
          simp only [List.cons_append, List.cons.injEq] at ho
          cases u with
          | nil => simpa using ho.2.symm
          | cons z u =>
            have := congrArg List.length ho.2
            simp only [List.length_append, List.length_cons, List.length_nil] at this
            omega
      · exfalso
        have : many ∈ [eps] := by
          change [eps] = _ at ho
          rw [ho]; simp
        exact hn.1 (by simpa using this)
      · exact absurd (by rw [ho]; simp) (hn.2 q hq).2
  have key : ∀ x c, FollowRule eps (Spec.augment many start stop (repeated eps many a ps)) x c →
      x = many → c = stop := by
    clear h
    intro x c h
    induction h with
    | @first q u t x c hp hr hx ht hc =>
      rintro rfl
      rcases hocc q hp u t hr with rfl | ⟨rfl, _⟩
      · obtain ⟨w, y, v, e, _, _, _, v', hd⟩ := hc
        obtain rfl : y = stop := by
          have : y ∈ [stop] := by rw [e]; simp
          simpa using this
        have := Derives.terminal_eq hterm hd
        simp only [List.cons.injEq] at this
        exact this.1
      · obtain ⟨w, y, v, e, _⟩ := hc
        simp at e
    | @last q u t x c hp hr hx ht _ ih =>
      rintro rfl
      rcases hocc q hp u t hr with rfl | ⟨_, hq⟩
      · have := Derives.terminal_eq hterm (ht stop (by simp))
        simp at this
      · exact ih hq
  exact key _ _ h rfl

end Repeated
end Verif
