import Verif.Spec.Augment
import Verif.Proof.Unused

/-! # What the production `start → init stop` changes -/

set_option linter.unusedSectionVars false

namespace Verif.Spec

variable {L T : Type} [DecidableEq T]
variable {eps init start stop : T} {ps : List (Production T)}

theorem mem_augment {q : Production T} :
    q ∈ augment init start stop ps ↔ q = ⟨start, [init, stop]⟩ ∨ q ∈ ps := by
  simp [augment]

theorem isNonTerminal_augment {x : T} :
    IsNonTerminal (augment init start stop ps) x ↔ x = start ∨ IsNonTerminal ps x := by
  unfold IsNonTerminal
  simp only [mem_augment]
  constructor
  · rintro ⟨q, rfl | hq, rfl⟩
    · exact .inl rfl
    · exact .inr ⟨q, hq, rfl⟩
  · rintro (rfl | ⟨q, hq, rfl⟩)
    · exact ⟨_, .inl rfl, rfl⟩
    · exact ⟨q, .inr hq, rfl⟩

namespace Fresh

theorem rhs_start (_ : Fresh eps ps start stop) : rhs eps ⟨start, [init, stop]⟩ = [init, stop] := by
  simp [rhs]

theorem not_start (hf : Fresh eps ps start stop) : ¬ IsNonTerminal ps start := by
  rintro ⟨q, hq, e⟩
  exact (hf.start_unused q hq).1 e

theorem not_stop (hf : Fresh eps ps start stop) : ¬ IsNonTerminal ps stop := by
  rintro ⟨q, hq, e⟩
  exact (hf.stop_unused q hq).1 e

theorem ne_start (hf : Fresh eps ps start stop) (hi : IsNonTerminal ps init) : init ≠ start := by
  rintro rfl; exact hf.not_start hi

theorem ne_stop (hf : Fresh eps ps start stop) (hi : IsNonTerminal ps init) : init ≠ stop := by
  rintro rfl; exact hf.not_stop hi

theorem stop_terminal (hf : Fresh eps ps start stop) : ¬ IsNonTerminal (augment init start stop ps) stop := by
  rw [isNonTerminal_augment]
  rintro (h | h)
  · exact hf.differ h.symm
  · exact hf.not_stop h

theorem isTerminal (hf : Fresh eps ps start stop) (hi : IsNonTerminal ps init) {a : T} :
    IsTerminal (augment init start stop ps) a ↔ IsTerminal ps a ∨ a = stop := by
  unfold IsTerminal
  rw [isNonTerminal_augment]
  constructor
  · rintro ⟨⟨q, hq, ha⟩, hn⟩
    rcases mem_augment.1 hq with rfl | hq
    · simp only [List.mem_cons, List.not_mem_nil, or_false] at ha
      rcases ha with rfl | rfl
      · exact absurd (.inr hi) hn
      · exact .inr rfl
    · exact .inl ⟨⟨q, hq, ha⟩, fun h => hn (.inr h)⟩
  · rintro (⟨⟨q, hq, ha⟩, hn⟩ | rfl)
    · refine ⟨⟨q, mem_augment.2 (.inr hq), ha⟩, ?_⟩
      rintro (rfl | h)
      · exact (hf.start_unused q hq).2 ha
      · exact hn h
    · refine ⟨⟨_, mem_augment.2 (.inl rfl), by simp⟩, ?_⟩
      rintro (h | h)
      · exact hf.differ h.symm
      · exact hf.not_stop h

theorem mono {l m : List T} (h : Derives eps ps l m) : Derives eps (augment init start stop ps) l m :=
  Derives.mono (fun _ h => mem_augment.2 (.inr h)) h

/-- From forms without `start` nothing new is derived. -/
theorem derives (hf : Fresh eps ps start stop) {l m : List T}
    (h : Derives eps (augment init start stop ps) l m) (hl : start ∉ l) :
    Derives eps ps l m ∧ start ∉ m := by
  induction h with
  | refl a => exact ⟨.refl a, hl⟩
  | step hs _ ih =>
    cases hs with
    | mk a b q hq =>
      have hqp : q ∈ ps := by
        rcases mem_augment.1 hq with rfl | h
        · exact absurd (by simp) hl
        · exact h
      have := ih (by
        intro hy
        simp only [List.append_assoc, List.mem_append] at hy
        rcases hy with hy | hy | hy
        · exact hl (by simp [hy])
        · exact (hf.start_unused q hqp).2 (rhs_subset hy)
        · exact hl (by simp [hy]))
      exact ⟨.step (.mk a b q hqp) this.1, this.2⟩

theorem no_stop (hf : Fresh eps ps start stop) {l m : List T} (h : Derives eps ps l m) (hl : stop ∉ l) :
    stop ∉ m := by
  intro hm
  rcases mem_output_of_derives h hm with h | ⟨q, hq, h⟩
  · exact hl h
  · exact (hf.stop_unused q hq).2 h

theorem derives_iff (hf : Fresh eps ps start stop) {l m : List T} (hl : start ∉ l) :
    Derives eps (augment init start stop ps) l m ↔ Derives eps ps l m :=
  ⟨fun h => (hf.derives h hl).1, mono⟩

/-- The forms derived from `start`. -/
theorem derives_start (hf : Fresh eps ps start stop) (hi : IsNonTerminal ps init) {m : List T}
    (h : Derives eps (augment init start stop ps) [start] m) :
    m = [start] ∨ ∃ w, m = w ++ [stop] ∧ Derives eps ps [init] w := by
  cases h with
  | refl => exact .inl rfl
  | step hs hd =>
    obtain ⟨q, hq, e1, rfl⟩ := Step.single hs
    rcases mem_augment.1 hq with rfl | hq
    · rw [hf.rhs_start] at hd
      obtain ⟨w, w', rfl, h1, h2⟩ := Derives.append_split (a := [init]) (b := [stop]) hd
      rw [Derives.terminal_eq hf.stop_terminal h2]
      exact .inr ⟨w, rfl, (hf.derives h1 (by simpa using (hf.ne_start hi).symm)).1⟩
    · exact absurd e1 (hf.start_unused q hq).1

theorem start_derives (hf : Fresh eps ps start stop) {w : List T} (h : Derives eps ps [init] w) :
    Derives eps (augment init start stop ps) [start] (w ++ [stop]) := by
  have h1 := Derives.of_production (eps := eps) (p := ⟨start, [init, stop]⟩)
    (mem_augment (ps := ps) (init := init) (stop := stop).2 (.inl rfl))
  rw [hf.rhs_start] at h1
  exact h1.trans (Derives.append (a := [init]) (b := [stop]) (mono h) (.refl _))

theorem nullable (hf : Fresh eps ps start stop) {x : T} (hx : x ≠ start) :
    Nullable eps (augment init start stop ps) x ↔ Nullable eps ps x :=
  hf.derives_iff (by simpa using hx.symm)

theorem canStart (hf : Fresh eps ps start stop) (hi : IsNonTerminal ps init) {x a : T} (hx : x ≠ start)
    (hs : x ≠ stop) : CanStart eps (augment init start stop ps) x a ↔ CanStart eps ps x a := by
  unfold CanStart
  rw [hf.isTerminal hi]
  constructor
  · rintro ⟨ht, he, v, hd⟩
    rw [hf.derives_iff (by simpa using hx.symm)] at hd
    rcases ht with ht | rfl
    · exact ⟨ht, he, v, hd⟩
    · exact absurd (by simp) (hf.no_stop hd (by simpa using hs.symm))
  · rintro ⟨ht, he, v, hd⟩
    exact ⟨.inl ht, he, v, mono hd⟩

theorem strNullable (hf : Fresh eps ps start stop) {l : List T} (hl : start ∉ l) :
    StrNullable eps (augment init start stop ps) l ↔ StrNullable eps ps l := by
  rw [← derives_nil_iff, ← derives_nil_iff, hf.derives_iff hl]

theorem strFirst (hf : Fresh eps ps start stop) (hi : IsNonTerminal ps init) {l : List T} {a : T}
    (hl : start ∉ l) (hs : stop ∉ l) :
    StrFirst eps (augment init start stop ps) l a ↔ StrFirst eps ps l a := by
  unfold StrFirst
  constructor
  · rintro ⟨u, y, v, rfl, h1, h2⟩
    simp only [List.mem_append, List.mem_cons, not_or] at hl hs
    exact ⟨u, y, v, rfl, (hf.strNullable hl.1).1 h1,
      (hf.canStart hi (Ne.symm hl.2.1) (Ne.symm hs.2.1)).1 h2⟩
  · rintro ⟨u, y, v, rfl, h1, h2⟩
    simp only [List.mem_append, List.mem_cons, not_or] at hl hs
    exact ⟨u, y, v, rfl, (hf.strNullable hl.1).2 h1,
      (hf.canStart hi (Ne.symm hl.2.1) (Ne.symm hs.2.1)).2 h2⟩

theorem split_start {u t : List T} {x : T} (h : [init, stop] = u ++ x :: t) :
    (u = [] ∧ x = init ∧ t = [stop]) ∨ (x = stop) := by
  rcases u with _ | ⟨y, _ | ⟨z, u⟩⟩
  · simp at h; exact .inl ⟨rfl, h.1.symm, h.2.symm⟩
  · simp at h; exact .inr h.2.1.symm
  · simp at h

/-- The computed FOLLOW sets gain `stop`, for the symbols that can end a form derived from `init`. -/
theorem followRule (hf : Fresh eps ps start stop) (hi : IsNonTerminal ps init) {x a : T} (hx : x ≠ start) :
    FollowRule eps (augment init start stop ps) x a ↔
      FollowRule eps ps x a ∨ (a = stop ∧ IsNonTerminal ps x ∧ CanEnd eps ps init x) := by
  have hsub : ∀ {q : Production T} {u t x}, q ∈ ps → rhs eps q = u ++ x :: t →
      start ∉ t ∧ stop ∉ t ∧ x ≠ start := by
    intro q u t x hq e
    have hm : ∀ y ∈ u ++ x :: t, y ∈ q.output := fun y hy => rhs_subset (by rw [e]; exact hy)
    refine ⟨fun h => ?_, fun h => ?_, ?_⟩
    · exact (hf.start_unused q hq).2 (hm _ (by simp [h]))
    · exact (hf.stop_unused q hq).2 (hm _ (by simp [h]))
    · rintro rfl
      exact (hf.start_unused q hq).2 (hm _ (by simp))
  constructor
  · intro h
    induction h with
    | @first q u t x a hp hr hx' ht ha =>
      rcases mem_augment.1 hp with rfl | hp
      · rw [hf.rhs_start] at hr
        rcases split_start hr with ⟨_, rfl, rfl⟩ | rfl
        · right
          have hs : a = stop := by
            obtain ⟨_, _, v, hd⟩ := canStart_iff_strFirst.2 ha
            have := Derives.terminal_eq hf.stop_terminal hd
            simp at this
            exact this.1
          exact ⟨hs, hi, [], .refl _⟩
        · exact absurd hx' hf.stop_terminal
      · obtain ⟨h1, h2, h3⟩ := hsub hp hr
        refine .inl (.first hp hr ?_ ht ((hf.strFirst hi h1 h2).1 ha))
        exact (isNonTerminal_augment.1 hx').resolve_left h3
    | @last q u t x a hp hr hx' ht _ ih =>
      rcases mem_augment.1 hp with rfl | hp
      · rw [hf.rhs_start] at hr
        rcases split_start hr with ⟨_, rfl, rfl⟩ | rfl
        · have := Derives.terminal_eq hf.stop_terminal (ht.derives)
          simp at this
        · exact absurd hx' hf.stop_terminal
      · obtain ⟨h1, h2, h3⟩ := hsub hp hr
        have hx'' := (isNonTerminal_augment.1 hx').resolve_left h3
        have ht' := (hf.strNullable h1).1 ht
        rcases ih (hf.start_unused q hp).1 with h | ⟨he, _, v, hd⟩
        · exact .inl (.last hp hr hx'' ht' h)
        · refine .inr ⟨he, hx'', v ++ u, ?_⟩
          have h4 := Derives.of_production (eps := eps) (ps := ps) hp
          rw [hr] at h4
          have h5 : Derives eps ps (u ++ x :: t) (u ++ [x]) := by
            have := Derives.append (Derives.refl (eps := eps) (ps := ps) (u ++ [x])) ht'.derives
            simpa using this
          have h6 := hd.trans (Derives.append (Derives.refl v) (h4.trans h5))
          simpa using h6
  · rintro (h | ⟨he, hnt, u, hd⟩)
    · clear hx
      induction h with
      | @first q u t x a hp hr hx' ht ha =>
        obtain ⟨h1, h2, h3⟩ := hsub hp hr
        exact .first (mem_augment.2 (.inr hp)) hr (isNonTerminal_augment.2 (.inr hx')) ht
          ((hf.strFirst hi h1 h2).2 ha)
      | @last q u t x a hp hr hx' ht _ ih =>
        obtain ⟨h1, h2, h3⟩ := hsub hp hr
        exact .last (mem_augment.2 (.inr hp)) hr (isNonTerminal_augment.2 (.inr hx'))
          ((hf.strNullable h1).2 ht) ih
    · -- by induction on the derivation: the last symbol of every form has `stop` behind it
      have hinit : FollowRule eps (augment init start stop ps) init stop := by
        refine .first (p := ⟨start, [init, stop]⟩) (u := []) (t := [stop]) (mem_augment.2 (.inl rfl))
          hf.rhs_start (isNonTerminal_augment.2 (.inr hi)) (by simpa using (hf.ne_stop hi).symm) ?_
        exact canStart_iff_strFirst.1 (CanStart.self ((hf.isTerminal hi).2 (.inr rfl)) hf.stop_ne_eps)
      have key : ∀ {l m : List T}, Derives eps ps l m →
          (∀ u y t, l = u ++ y :: t → StrNullable eps ps t → IsNonTerminal ps y →
            FollowRule eps (augment init start stop ps) y stop) →
          ∀ u y t, m = u ++ y :: t → StrNullable eps ps t → IsNonTerminal ps y →
            FollowRule eps (augment init start stop ps) y stop := by
        intro l m hd
        induction hd with
        | refl => exact fun h => h
        | step hs _ ih =>
          intro hl
          refine ih ?_
          cases hs with
          | mk a b q hq =>
            intro u y t e ht hy
            rw [List.append_assoc] at e
            rcases List.append_eq_append_iff.1 e with ⟨c, e1, e2⟩ | ⟨c, e1, e2⟩
            · -- `y` in the right-hand side or behind
              rcases List.append_eq_append_iff.1 e2 with ⟨d, e3, e4⟩ | ⟨d, e3, e4⟩
              · refine hl (a ++ q.input :: d) y t ?_ ht hy
                rw [e4]; simp
              · rcases d with _ | ⟨z, d⟩
                · simp only [List.nil_append] at e4
                  exact hl (a ++ [q.input]) y t (by rw [← e4]; simp) ht hy
                · simp only [List.cons_append, List.cons.injEq] at e4
                  obtain ⟨rfl, rfl⟩ := e4
                  rw [strNullable_append] at ht
                  have hq' := hl a q.input b rfl ht.2 ⟨q, hq, rfl⟩
                  obtain ⟨g1, g2, g3⟩ := hsub hq e3
                  exact .last (mem_augment.2 (.inr hq)) e3 (isNonTerminal_augment.2 (.inr hy))
                    ((hf.strNullable g1).2 ht.1) hq'
            · rcases c with _ | ⟨z, c⟩
              · simp only [List.nil_append] at e2
                rcases hr : rhs eps q with _ | ⟨r, rs⟩
                · rw [hr] at e2
                  simp only [List.nil_append] at e2
                  exact hl (a ++ [q.input]) y t (by rw [← e2]; simp) ht hy
                · rw [hr] at e2
                  simp only [List.cons_append, List.cons.injEq] at e2
                  obtain ⟨rfl, rfl⟩ := e2
                  rw [strNullable_append] at ht
                  have hq' := hl a q.input b rfl ht.2 ⟨q, hq, rfl⟩
                  obtain ⟨g1, g2, g3⟩ := hsub (u := []) hq hr
                  exact .last (u := []) (mem_augment.2 (.inr hq)) hr (isNonTerminal_augment.2 (.inr hy))
                    ((hf.strNullable g1).2 ht.1) hq'
              · simp only [List.cons_append, List.cons.injEq] at e2
                obtain ⟨rfl, rfl⟩ := e2
                rw [strNullable_append, strNullable_append] at ht
                refine hl u y (c ++ q.input :: b) (by rw [e1]; simp) ?_ hy
                rw [strNullable_append, strNullable_cons]
                exact ⟨ht.1, Nullable.of_production hq ht.2.1, ht.2.2⟩
      rw [he]
      refine key hd ?_ u x [] rfl strNullable_nil hnt
      intro u y t e _ _
      rcases u with _ | ⟨z, u⟩
      · simp only [List.nil_append, List.cons.injEq] at e
        rw [← e.1]; exact hinit
      · simp at e

theorem lead (hf : Fresh eps ps start stop) (hi : IsNonTerminal ps init) {q : Production T} (hq : q ∈ ps)
    {a : T} (ha : a ≠ stop) :
    Transitions.Lead eps (augment init start stop ps) q a ↔ Transitions.Lead eps ps q a := by
  unfold Transitions.Lead
  have hfo : ∀ {x}, x ≠ start → (FollowRule eps (augment init start stop ps) x a ↔ FollowRule eps ps x a) := by
    intro x hx
    rw [hf.followRule hi hx]
    exact ⟨fun h => h.resolve_right fun h => ha h.1, .inl⟩
  refine or_congr (and_congr_right fun _ => hfo (hf.start_unused q hq).1) ?_
  refine exists_congr fun x => exists_congr fun t => and_congr_right fun hr => ?_
  have hx : x ∈ q.output := rhs_subset (eps := eps) (by rw [hr]; simp)
  have h1 : x ≠ start := by rintro rfl; exact (hf.start_unused q hq).2 hx
  have h2 : x ≠ stop := by rintro rfl; exact (hf.stop_unused q hq).2 hx
  exact or_congr (hf.canStart hi h1 h2) (and_congr (hf.nullable h1) (hfo h1))

theorem lead_stop (hf : Fresh eps ps start stop) (hi : IsNonTerminal ps init) {q : Production T} (hq : q ∈ ps) :
    Transitions.Lead eps (augment init start stop ps) q stop ↔
      (rhs eps q = [] ∧ CanEnd eps ps init q.input) ∨
      ∃ x t, rhs eps q = x :: t ∧ Nullable eps ps x ∧ CanEnd eps ps init x := by
  unfold Transitions.Lead
  have hno : ∀ x, ¬ FollowRule eps ps x stop := fun x h => by
    obtain ⟨⟨⟨r, hr, hm⟩, _⟩, _⟩ := h.canFollow
    exact (hf.stop_unused r hr).2 hm
  have hfo : ∀ {x}, x ≠ start → (FollowRule eps (augment init start stop ps) x stop ↔
      IsNonTerminal ps x ∧ CanEnd eps ps init x) := by
    intro x hx
    rw [hf.followRule hi hx]
    exact ⟨fun h => (h.resolve_left (hno x)).2, fun h => .inr ⟨rfl, h⟩⟩
  refine or_congr (and_congr_right fun _ => ?_) ?_
  · rw [hfo (hf.start_unused q hq).1]
    exact ⟨fun h => h.2, fun h => ⟨⟨q, hq, rfl⟩, h⟩⟩
  · refine exists_congr fun x => exists_congr fun t => and_congr_right fun hr => ?_
    have hx : x ∈ q.output := rhs_subset (eps := eps) (by rw [hr]; simp)
    have h1 : x ≠ start := by rintro rfl; exact (hf.start_unused q hq).2 hx
    have h2 : x ≠ stop := by rintro rfl; exact (hf.stop_unused q hq).2 hx
    rw [hf.canStart hi h1 h2, hf.nullable h1, hfo h1]
    constructor
    · rintro (h | h)
      · obtain ⟨⟨⟨r, hr, hm⟩, _⟩, _⟩ := h
        exact absurd hm (hf.stop_unused r hr).2
      · exact ⟨h.1, h.2.2⟩
    · rintro ⟨h3, h4⟩
      refine .inr ⟨h3, ?_, h4⟩
      by_contra hc
      have := Derives.terminal_eq hc h3
      simp at this

theorem wellFormed (hf : Fresh eps ps start stop) (hw : WellFormed eps ps) (hi : IsNonTerminal ps init) :
    WellFormed eps (augment init start stop ps) := by
  intro q hq
  rcases mem_augment.1 hq with rfl | hq
  · refine ⟨hf.start_ne_eps, by simp, ?_⟩
    intro h
    simp only [List.mem_cons, List.not_mem_nil, or_false] at h
    rcases h with h | h
    · obtain ⟨r, hr, e⟩ := hi
      exact absurd (e.trans h.symm) (hw r hr).1
    · exact absurd h.symm hf.stop_ne_eps
  · exact hw q hq

theorem endMarked (hf : Fresh eps ps start stop) (hi : IsNonTerminal ps init) :
    EndMarked eps start stop (augment init start stop ps) where
  ne_eps := hf.stop_ne_eps
  terminal := hf.stop_terminal
  initial_once := by
    intro q hq
    rcases mem_augment.1 hq with rfl | hq
    · simpa using ⟨(hf.ne_start hi).symm, hf.differ⟩
    · exact (hf.start_unused q hq).2
  initial_ends := by
    intro q hq e
    rcases mem_augment.1 hq with rfl | hq
    · exact ⟨[init], rfl, by simpa using (hf.ne_stop hi).symm⟩
    · exact absurd e (hf.start_unused q hq).1
  only_there := by
    intro q hq e
    rcases mem_augment.1 hq with rfl | hq
    · exact absurd rfl e
    · exact (hf.stop_unused q hq).2

theorem sentence (hf : Fresh eps ps start stop) (hi : IsNonTerminal ps init) {w' : List T} :
    Sentence eps start (augment init start stop ps) w' ↔ ∃ w, w' = w ++ [stop] ∧ Sentence eps init ps w := by
  constructor
  · rintro ⟨hd, ht⟩
    rcases hf.derives_start hi hd with rfl | ⟨w, rfl, hd'⟩
    · exact absurd (isNonTerminal_augment.2 (.inl rfl)) (ht start (by simp)).1.2
    · refine ⟨w, rfl, hd', fun a ha => ⟨?_, (ht a (by simp [ha])).2⟩⟩
      refine ((hf.isTerminal hi).1 (ht a (by simp [ha])).1).resolve_right ?_
      rintro rfl
      exact hf.no_stop hd' (by simpa using (hf.ne_stop hi).symm) ha
  · rintro ⟨w, rfl, hd, ht⟩
    refine ⟨hf.start_derives hd, fun a ha => ?_⟩
    rcases List.mem_append.1 ha with ha | ha
    · exact ⟨(hf.isTerminal hi).2 (.inl (ht a ha).1), (ht a ha).2⟩
    · rw [List.mem_singleton.1 ha]
      exact ⟨(hf.isTerminal hi).2 (.inr rfl), hf.stop_ne_eps⟩

theorem noAdjacentRepeat (hf : Fresh eps ps start stop) (hi : IsNonTerminal ps init) :
    NoAdjacentRepeat (augment init start stop ps) ↔ NoAdjacentRepeat ps := by
  constructor
  · intro h q hq u x v e hx
    exact h q (mem_augment.2 (.inr hq)) u x v e (isNonTerminal_augment.2 (.inr hx))
  · intro h q hq u x v e hx
    rcases mem_augment.1 hq with rfl | hq'
    · rcases split_start e with ⟨_, rfl, e2⟩ | rfl
      · simp only [List.cons.injEq] at e2
        exact hf.ne_stop hi e2.1
      · exact hf.stop_terminal hx
    · rcases isNonTerminal_augment.1 hx with rfl | hx
      · exact (hf.start_unused q hq').2 (by rw [e]; simp)
      · exact h q hq' u x v e hx

theorem notLeftRecursive (hf : Fresh eps ps start stop) (hi : IsNonTerminal ps init) :
    NotLeftRecursive eps (augment init start stop ps) ↔ NotLeftRecursive eps ps := by
  constructor
  · rintro h x v ⟨m, hs, hd⟩
    refine h x v ⟨m, ?_, mono hd⟩
    obtain ⟨q, hq, rfl, rfl⟩ := Step.single hs
    exact Step.of_production (mem_augment.2 (.inr hq))
  · rintro h x v ⟨m, hs, hd⟩
    obtain ⟨q, hq, rfl, rfl⟩ := Step.single hs
    rcases mem_augment.1 hq with rfl | hq
    · rw [hf.rhs_start] at hd
      have := (hf.derives hd (by simpa using ⟨(hf.ne_start hi).symm, hf.differ⟩)).2
      simp at this
    · refine h q.input v ⟨_, Step.of_production hq, (hf.derives hd ?_).1⟩
      exact fun hm => (hf.start_unused q hq).2 (rhs_subset hm)

mutual
/-- Trees of old symbols are trees of the old grammar. -/
theorem isTree (hf : Fresh eps ps start stop) {x : T} {w : List (Token L T)} {n : Node L T}
    (h : IsTree eps (augment init start stop ps) x w n) (hx : x ≠ start) : IsTree eps ps x w n := by
  cases h with
  | leaf t h1 h2 => exact .leaf t (fun h => h1 (isNonTerminal_augment.2 (.inr h))) h2
  | eps => exact .eps
  | node q w ns hq hns =>
    have hq' : q ∈ ps := by
      rcases mem_augment.1 hq with rfl | hq
      · exact absurd rfl hx
      · exact hq
    exact .node q w ns hq' (isForest hf hns (hf.start_unused q hq').2)
theorem isForest (hf : Fresh eps ps start stop) {xs : List T} {w : List (Token L T)} {ns : List (Node L T)}
    (h : IsForest eps (augment init start stop ps) xs w ns) (hx : start ∉ xs) : IsForest eps ps xs w ns := by
  cases h with
  | nil => exact .nil
  | cons x xs w w' n ns h1 h2 =>
    simp only [List.mem_cons, not_or] at hx
    exact .cons x xs w w' n ns (isTree hf h1 (Ne.symm hx.1)) (isForest hf h2 hx.2)
end

/-- The trees of `start`. -/
theorem isTree_start (hf : Fresh eps ps start stop) (hi : IsNonTerminal ps init) {w : List (Token L T)}
    {n : Node L T} (h : IsTree eps (augment init start stop ps) start w n) :
    ∃ w' t n', w = w' ++ [t] ∧ t.tType = stop ∧ n = .mk [n', .mk [] t] ⟨none, start⟩ ∧
      IsTree eps ps init w' n' := by
  have key : ∀ {x : T} {w : List (Token L T)} {n : Node L T},
      IsTree eps (augment init start stop ps) x w n → x = start →
      ∃ ns, n = .mk ns ⟨none, start⟩ ∧ IsForest eps (augment init start stop ps) [init, stop] w ns := by
    intro x w n h hx
    cases h with
    | leaf t h1 h2 => exact absurd (isNonTerminal_augment.2 (.inl hx)) h1
    | eps => exact absurd hx.symm hf.start_ne_eps
    | node q w ns hq hns =>
      rcases mem_augment.1 hq with e | hq
      · rw [e] at hns ⊢
        exact ⟨ns, rfl, hns⟩
      · exact absurd hx (hf.start_unused q hq).1
  have key2 : ∀ {x : T} {w : List (Token L T)} {n : Node L T},
      IsTree eps (augment init start stop ps) x w n → x = stop →
      ∃ t, w = [t] ∧ t.tType = stop ∧ n = .mk [] t := by
    intro x w n h hx
    cases h with
    | leaf t h1 h2 => exact ⟨t, rfl, hx, rfl⟩
    | eps => exact absurd hx.symm hf.stop_ne_eps
    | node q w ns hq hns => exact absurd ⟨q, hq, hx⟩ hf.stop_terminal
  obtain ⟨ns, rfl, hns⟩ := key h rfl
  cases hns with
  | cons x xs w w' n ns h1 h2 =>
    cases h2 with
    | cons x' xs' w2 w2' n2 ns2 h3 h4 =>
      cases h4
      obtain ⟨t, rfl, ht, rfl⟩ := key2 h3 rfl
      exact ⟨w, t, n, by simp, ht, rfl, isTree hf h1 (hf.ne_start hi)⟩

end Fresh

end Verif.Spec
