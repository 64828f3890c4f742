import Verif.Proof.LL1
import Verif.Proof.TableAny
import Verif.Spec.SetRules

/-! # Sets closed under the textbook rules contain FIRST and FOLLOW -/

set_option linter.unusedSectionVars false

namespace Verif.Spec

variable {T : Type} [DecidableEq T] {eps : T} {ps : List (Production T)} {ff : FirstFollow T}

theorem InFirst.mem {x a : T} {s : List T} (h : InFirst ff x a) (hs : ff.getFirstSymbols x = some s) :
    a ∈ s := by
  obtain ⟨s', h1, h2⟩ := h
  rw [hs] at h1
  cases h1
  exact h2

theorem rhs_split {p : Production T} {u v : List T} {y : T} (h : rhs eps p = u ++ y :: v) :
    p.output = u ++ y :: v := by
  unfold rhs at h
  split at h
  · cases u <;> simp at h
  · exact h

theorem ObeysRules.nullable (H : ObeysRules eps ps ff) (hw : WellFormed eps ps) {x : T}
    (h : Nullable eps ps x) : InFirst ff x eps := by
  refine nullable_of_closed (fun x => InFirst ff x eps) ?_ h
  intro p hp hall
  refine H.empty p hp ?_
  unfold rhs at hall
  split at hall
  · rename_i ho
    rw [ho]
    intro z hz
    simp only [List.mem_singleton] at hz
    subst hz
    refine H.terminal _ ⟨⟨p, hp, by rw [ho]; simp⟩, ?_⟩
    rintro ⟨q, hq, hqe⟩
    exact (hw q hq).1 hqe
  · exact hall

theorem ObeysRules.canStart (H : ObeysRules eps ps ff) (hw : WellFormed eps ps) {x a : T}
    (h : CanStart eps ps x a) : InFirst ff x a := by
  have := canStart_of_closed (fun x => InFirst ff x eps) (fun x a => a ≠ eps → InFirst ff x a)
    ?_ ?_ (fun a ha _ _ => H.terminal a ha) h
  · exact this h.2.1
  · intro p hp hall
    refine H.empty p hp ?_
    unfold rhs at hall
    split at hall
    · rename_i ho
      rw [ho]
      intro z hz
      simp only [List.mem_singleton] at hz
      subst hz
      refine H.terminal _ ⟨⟨p, hp, by rw [ho]; simp⟩, ?_⟩
      rintro ⟨q, hq, hqe⟩
      exact (hw q hq).1 hqe
    · exact hall
  · intro p hp u y v hr hu a hy hne
    exact H.first p hp u y v a (rhs_split hr) hu hne (hy hne)

theorem ObeysRules.canFollow (H : ObeysRules eps ps ff) (hw : WellFormed eps ps) {x a : T}
    (hx : IsNonTerminal ps x) (h : CanFollow eps ps x a) : InFollow ff x a := by
  refine canFollow_of_closed (InFollow ff) ?_ ?_ hx h
  · rintro p hp u x t a hr hx ⟨m, y, v, rfl, hm, hy⟩
    exact H.follow p hp u x m y v a (rhs_split hr) hx (fun z hz => H.nullable hw (hm z hz)) hy.2.1
      (H.canStart hw hy)
  · intro p hp u x t a hr hx ht ha
    exact H.last p hp u x t a (rhs_split hr) hx (fun z hz => H.nullable hw (ht z hz)) ha

/-- Every terminal that predicts a production selects it by the given sets. -/
theorem ObeysRules.looksAhead (H : ObeysRules eps ps ff) (hw : WellFormed eps ps)
    (hs : Supplies eps ps ff) {q : Production T} (hq : q ∈ ps) {a : T} (h : Predicts eps ps q a) :
    LooksAhead eps ff q a := by
  obtain ⟨⟨x, r, fx, ho, hfx, hfo⟩, _⟩ := hs q hq
  obtain ⟨h1, h2, h3⟩ := h
  refine ⟨x, r, fx, ho, hfx, ?_⟩
  by_cases hx : x = eps
  · subst hx
    have hr : r = [] := by
      have := (hw q hq).2.2 (by rw [ho]; simp)
      rw [ho] at this
      simpa using this
    subst hr
    have hrhs : rhs x q = [] := by simp [rhs, ho]
    have hnt : ¬ IsNonTerminal ps x := by
      rintro ⟨q', hq', hqe⟩
      exact (hw q' hq').1 hqe
    have he : x ∈ fx := (H.terminal x ⟨⟨q, hq, by rw [ho]; simp⟩, hnt⟩).mem hfx
    refine .inr ⟨he, ?_⟩
    rw [hrhs] at h3
    rcases h3 with ⟨v, hd⟩ | ⟨_, hc⟩
    · exact absurd hd.nil_eq (by simp)
    · obtain ⟨s, hs1, hs2⟩ := H.canFollow hw ⟨q, hq, rfl⟩ hc
      exact ⟨s, by simpa using hs1, hs2⟩
  · have hrhs : rhs eps q = x :: r := by
      unfold rhs
      rw [if_neg, ho]
      rw [ho]
      intro h
      simp only [List.cons.injEq] at h
      exact hx h.1
    rw [hrhs] at h3
    have key : Nullable eps ps x → CanFollow eps ps x a →
        eps ∈ fx ∧ ∃ fo, ff.getFollowSymbols (if x = eps then q.input else x) = some fo ∧ a ∈ fo := by
      intro hn hc
      have hnt : IsNonTerminal ps x := by
        by_contra hcn
        exact FirstFollow.terminal_not_nullable hcn hn
      obtain ⟨s, hs1, hs2⟩ := H.canFollow hw hnt hc
      exact ⟨(H.nullable hw hn).mem hfx, s, by rw [if_neg hx]; exact hs1, hs2⟩
    have hprod := Derives.of_production (eps := eps) hq
    rw [hrhs] at hprod
    rcases h3 with ⟨v, hd⟩ | ⟨hd, hc⟩
    · have hsf := strFirst_of_derives h1 h2 hd
      rw [strFirst_cons] at hsf
      rcases hsf with hsf | ⟨hn, hsf⟩
      · exact .inl ⟨(H.canStart hw hsf).mem hfx, h2⟩
      · obtain ⟨v', hv'⟩ := hsf.derives
        refine .inr (key hn ⟨h1, h2, q.input, [], v', ⟨q, hq, rfl⟩, hprod.trans ?_⟩)
        simpa using hv'.context [x] []
    · rw [derives_nil_iff, strNullable_cons] at hd
      refine .inr (key hd.1 ?_)
      obtain ⟨_, _, N, u, v, hN, hdd⟩ := hc
      refine ⟨h1, h2, N, u, v, hN, hdd.trans ?_⟩
      have e1 := hprod.context u (a :: v)
      have e2 := hd.2.derives.context (u ++ [x]) (a :: v)
      simp only [List.append_assoc, List.cons_append, List.nil_append, List.append_nil] at e1 e2
      exact e1.trans e2

/-! ## A check -/

/-- The ways to split a list at an element. -/
def splits : List T → List (List T × T × List T)
  | [] => []
  | x :: l => ([], x, l) :: (splits l).map (fun s => (x :: s.1, s.2.1, s.2.2))

omit [DecidableEq T] in
theorem mem_splits {u v : List T} {y : T} : (u, y, v) ∈ splits (u ++ y :: v) := by
  induction u with
  | nil => simp [splits]
  | cons x u ih =>
    simp only [List.cons_append, splits, List.mem_cons, List.mem_map]
    exact .inr ⟨_, ih, rfl⟩

/-- `obeysCheck` decides, by going through all productions, whether sets are closed under the rules. -/
def obeysCheck (eps : T) (ps : List (Production T)) (ff : FirstFollow T) : Bool :=
  let inF := fun x a => ((ff.getFirstSymbols x).getD []).contains a
  let fst := fun x => ((ff.getFirstSymbols x).getD []).filter (fun a => decide (a ≠ eps))
  let inFo := fun x a => ((ff.getFollowSymbols x).getD []).contains a
  let fol := fun x => (ff.getFollowSymbols x).getD []
  let nt := fun x => (ps.map (·.input)).contains x
  (ps.flatMap (·.output)).all (fun a => nt a || inF a a) &&
  ps.all (fun p =>
    (splits p.output).all (fun s => !(s.1.all (fun z => inF z eps)) ||
      (fst s.2.1).all (fun a => inF p.input a)) &&
    (!(p.output.all (fun z => inF z eps)) || inF p.input eps) &&
    (splits p.output).all (fun s => !(nt s.2.1) ||
      ((splits s.2.2).all (fun s' => !(s'.1.all (fun z => inF z eps)) ||
        (fst s'.2.1).all (fun a => inFo s.2.1 a)) &&
      (!(s.2.2.all (fun z => inF z eps)) || (fol p.input).all (fun a => inFo s.2.1 a)))))

theorem inFirst_iff {x a : T} : InFirst ff x a ↔ a ∈ (ff.getFirstSymbols x).getD [] := by
  unfold InFirst
  cases ff.getFirstSymbols x <;> simp

theorem inFollow_iff {x a : T} : InFollow ff x a ↔ a ∈ (ff.getFollowSymbols x).getD [] := by
  unfold InFollow
  cases ff.getFollowSymbols x <;> simp

theorem obeysRules_of_check (h : obeysCheck eps ps ff = true) : ObeysRules eps ps ff := by
  simp only [obeysCheck, Bool.and_eq_true, List.all_eq_true, Bool.or_eq_true, Bool.not_eq_true',
    List.contains_iff_mem, ← Bool.not_eq_true, List.mem_filter, decide_eq_true_eq, and_imp,
    Bool.and_eq_true] at h
  simp only [← inFirst_iff, ← inFollow_iff] at h
  obtain ⟨h1, h2⟩ := h
  have hnt : ∀ x, x ∈ ps.map (·.input) ↔ IsNonTerminal ps x := by
    intro x; simp [IsNonTerminal]
  simp only [hnt] at h1 h2
  refine ⟨?_, ?_, ?_, ?_, ?_⟩
  · rintro a ⟨⟨q, hq, ha⟩, hn⟩
    exact (h1 a (List.mem_flatMap.2 ⟨q, hq, ha⟩)).resolve_left hn
  · intro p hp u y v a ho hu hne hy
    have := (h2 p hp).1.1 (u, y, v) (ho ▸ mem_splits)
    exact (this.resolve_left (fun h' => h' hu)) a hy hne
  · intro p hp hall
    exact (h2 p hp).1.2.resolve_left (fun h' => h' hall)
  · intro p hp u x m y v a ho hx hm hne hy
    have := ((h2 p hp).2 (u, x, m ++ y :: v) (ho ▸ mem_splits)).resolve_left (fun h' => h' hx)
    exact (this.1 (m, y, v) mem_splits).resolve_left (fun h' => h' hm) a hy hne
  · intro p hp u x v a ho hx hv ha
    have := ((h2 p hp).2 (u, x, v) (ho ▸ mem_splits)).resolve_left (fun h' => h' hx)
    exact this.2.resolve_left (fun h' => h' hv) a ha

end Verif.Spec
