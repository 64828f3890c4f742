import Verif.Spec.Unite
import Verif.Proof.SingleFlag
import Verif.Props.Reach
import Verif.Props.Augment

/-!
# Property C92: two grammars in one
-/

set_option linter.unusedSectionVars false

namespace Verif.Props

open Verif.Spec Verif.Examples

variable {σ L T : Type} [DecidableEq T]

section
variable {eps start a b : T} {ps qs : List (Production T)}

theorem mem_unite {r : Production T} :
    r ∈ unite start a b ps qs ↔ r = ⟨start, [a]⟩ ∨ r = ⟨start, [b]⟩ ∨ r ∈ ps ∨ r ∈ qs := by
  simp [unite]

theorem _root_.Verif.Spec.Apart.symm (ha : Apart eps start a b ps qs) : Apart eps start b a qs ps where
  left := ha.right
  right := ha.left
  apart q hq p hp := by
    obtain ⟨h1, h2, h3⟩ := ha.apart p hp q hq
    exact ⟨h1.symm, h3, h2⟩
  start_ne_eps := ha.start_ne_eps
  new_left := ha.new_right
  new_right := ha.new_left

theorem _root_.Verif.Spec.Apart.start_ne (ha : Apart eps start a b ps qs) : start ≠ a := by
  obtain ⟨p, hp, rfl⟩ := ha.left
  exact fun e => (ha.new_left p hp).1 e.symm

/-- The rest of the united grammar, seen from `ps`. -/
def others (start a b : T) (qs : List (Production T)) : List (Production T) :=
  ⟨start, [a]⟩ :: ⟨start, [b]⟩ :: qs

theorem _root_.Verif.Spec.Apart.unused (ha : Apart eps start a b ps qs) : Unused a ps (others start a b qs) := by
  intro u hu
  have hs : ∀ q ∈ others start a b qs, start ∉ q.output := by
    intro q hq
    simp only [others, List.mem_cons] at hq
    rcases hq with rfl | rfl | hq
    · simpa using ha.start_ne
    · simpa using ha.symm.start_ne
    · exact (ha.new_right q hq).2
  have h1 : ∀ z, u = ⟨start, [z]⟩ → u.input ≠ a ∧
      (∀ p ∈ ps, p.input ≠ u.input ∧ u.input ∉ p.output) ∧
      ∀ v y w, u.output = v ++ y :: w → IsNonTerminal ps y →
        w = [] ∧ ∀ q ∈ others start a b qs, u.input ∉ q.output := by
    rintro z rfl
    refine ⟨ha.start_ne, fun p hp => ha.new_left p hp, ?_⟩
    intro v y w e _
    refine ⟨?_, hs⟩
    cases v with
    | nil => simp at e; exact e.2
    | cons _ v => simp at e
  simp only [others, List.mem_cons] at hu
  rcases hu with hu | hu | hu
  · exact h1 a hu
  · exact h1 b hu
  · refine ⟨?_, ?_, ?_⟩
    · rintro rfl
      obtain ⟨p, hp, e⟩ := ha.left
      exact (ha.apart p hp u hu).1 e
    · intro p hp
      exact ⟨(ha.apart p hp u hu).1, (ha.apart p hp u hu).2.2⟩
    · rintro v y w e ⟨p, hp, rfl⟩
      exact absurd (by rw [e]; simp) (ha.apart p hp u hu).2.1

theorem _root_.Verif.Spec.Apart.mem_left (_ : Apart eps start a b ps qs) (r : Production T) :
    r ∈ unite start a b ps qs ↔ r ∈ ps ++ others start a b qs := by
  simp only [mem_unite, others, List.mem_append, List.mem_cons]
  tauto

theorem _root_.Verif.Spec.Apart.mem_right (_ : Apart eps start a b ps qs) (r : Production T) :
    r ∈ unite start a b ps qs ↔ r ∈ qs ++ others start b a ps := by
  simp only [mem_unite, others, List.mem_append, List.mem_cons]
  tauto

theorem filter_input_nil {l : List (Production T)} {A : T} (h : ∀ u ∈ l, u.input ≠ A) :
    l.filter (fun p => p.input = A) = [] := by
  rw [List.filter_eq_nil_iff]
  intro r hr
  simp [h r hr]

theorem filter_left {A : T} (h : ∀ u ∈ others start a b qs, u.input ≠ A) :
    (unite start a b ps qs).filter (fun p => p.input = A) = ps.filter (fun p => p.input = A) := by
  have hA : start ≠ A := h ⟨start, [a]⟩ (by simp [others])
  have hq := filter_input_nil (l := qs) (A := A) fun u hu => h u (by simp [others, hu])
  simp [unite, hA, hq]

theorem filter_right {A : T} (h : ∀ u ∈ others start b a ps, u.input ≠ A) :
    (unite start a b ps qs).filter (fun p => p.input = A) = qs.filter (fun p => p.input = A) := by
  have hA : start ≠ A := h ⟨start, [b]⟩ (by simp [others])
  have hq := filter_input_nil (l := ps) (A := A) fun u hu => h u (by simp [others, hu])
  simp [unite, hA, hq]

theorem _root_.Verif.Spec.Unused.canStart_nt {init : T} {us : List (Production T)} (hu : Unused init ps us)
    {x c : T} (hx : IsNonTerminal ps x) : CanStart eps ps x c ↔ CanStart eps (ps ++ us) x c := by
  have hxu : ∀ u ∈ us, u.input ≠ x := by
    obtain ⟨p, hp, rfl⟩ := hx
    exact fun u h => (((hu u h).2.1 p hp).1).symm
  constructor
  · rintro ⟨⟨⟨r, hr, ha⟩, hn⟩, he, v, hd⟩
    refine ⟨⟨⟨r, by simp [hr], ha⟩, ?_⟩, he, v, Derives.mono (fun _ h => by simp [h]) hd⟩
    rwa [← hu.isNonTerminal (hu.old hr ha)]
  · rintro ⟨⟨_, hn⟩, he, v, hd⟩
    obtain ⟨hd', ho⟩ := hu.derives hd (by simpa using hxu)
    have hn' : ¬ IsNonTerminal ps c := by rwa [hu.isNonTerminal (ho c (by simp))]
    refine ⟨⟨?_, hn'⟩, he, v, hd'⟩
    rcases mem_output_of_derives hd' (y := c) (by simp) with h | h
    · rw [List.mem_singleton.1 h] at hn'; exact absurd hx hn'
    · exact h

theorem selects_iff {h : HashOrder T} {g : Grammar T} (hg : Grammar.new h eps a ps = .ok g)
    {ff : FirstFollow T} (hff : Returns (fun n => FirstFollow.from h n g) ff) {x : T}
    (hx : IsNonTerminal ps x) (c : T) :
    Selects eps ff x c ↔ CanStart eps ps x c ∨ (Nullable eps ps x ∧ FollowRule eps ps x c) := by
  have S := first_follow_spec hg hff
  obtain ⟨fi, hfi⟩ := Option.isSome_iff_exists.1 ((S.first.inv.dom x).2 (.inl hx))
  obtain ⟨fo, hfo⟩ := Option.isSome_iff_exists.1 ((S.follow.dom x).2 hx)
  have h1 := S.first.mem_nt x hx
  have h2 := S.follow.mem x
  rw [FirstFollow.look_of_get hfi] at h1
  rw [FirstFollow.look_of_get hfo] at h2
  have hce : ∀ c, CanStart eps ps x c → c ≠ eps := fun _ h => h.2.1
  unfold Selects FirstFollow.getFirstSymbols FirstFollow.getFollowSymbols
  constructor
  · rintro ⟨fi', fo', e1, e2, hs⟩
    rw [hfi] at e1; cases e1
    rw [hfo] at e2; cases e2
    rcases hs with ⟨h3, h4⟩ | ⟨h3, h4⟩
    · exact .inl (((h1 c).1 h3).resolve_left fun h => h4 h.1)
    · exact .inr ⟨(((h1 eps).1 h3).resolve_right fun h => hce _ h rfl).2, (h2 c).1 h4⟩
  · intro hs
    refine ⟨fi, fo, hfi, hfo, ?_⟩
    rcases hs with h3 | ⟨h3, h4⟩
    · exact .inl ⟨(h1 c).2 (.inr h3), hce _ h3⟩
    · exact .inr ⟨(h1 eps).2 (.inl ⟨rfl, h3⟩), (h2 c).2 h4⟩

theorem ne_eps_of_new {h : HashOrder T} {g : Grammar T} {init x : T} (hg : Grammar.new h eps init ps = .ok g)
    (hx : IsNonTerminal ps x) : x ≠ eps := by
  obtain ⟨p, hp, rfl⟩ := hx
  exact ((Grammar.grammarOf_of_new hg).wf p hp).1

/-- `start → x` is in the cell iff the token selects `x` in its own grammar. -/
theorem lead_unit {init : T} {us all : List (Production T)} (hu : Unused init ps us)
    (hmem : ∀ r, r ∈ all ↔ r ∈ ps ++ us)
    {h : HashOrder T} {g : Grammar T} (hg : Grammar.new h eps init ps = .ok g)
    {ff : FirstFollow T} (hff : Returns (fun n => FirstFollow.from h n g) ff) {x : T}
    (hx : IsNonTerminal ps x) (c : T) :
    Transitions.Lead eps all ⟨start, [x]⟩ c ↔ Selects eps ff x c := by
  have hxu : ∀ u ∈ us, u.input ≠ x := by
    obtain ⟨p, hp, rfl⟩ := hx
    exact fun u h => (((hu u h).2.1 p hp).1).symm
  have hr : rhs eps ⟨start, [x]⟩ = [x] := by
    unfold rhs
    rw [if_neg]
    simpa using ne_eps_of_new hg hx
  rw [lead_congr hmem, selects_iff hg hff hx, hu.canStart_nt hx, hu.nullable hxu, hu.followRule hx]
  unfold Transitions.Lead
  rw [hr]
  simp only [List.cons_ne_self, false_and, List.cons.injEq, false_or]
  constructor
  · rintro ⟨_, _, ⟨rfl, rfl⟩, h⟩
    exact h
  · intro h
    exact ⟨_, _, ⟨rfl, rfl⟩, h⟩

end

theorem conflictFree_iff (t : Transitions T) : ConflictFree t ↔ ∀ x c, (candidates t x c).length ≤ 1 := by
  unfold ConflictFree candidates
  constructor
  · intro h x c
    cases e : t.getProductions x c with
    | none => simp
    | some l => simpa using h x c l e
  · intro h x c l e
    have := h x c
    rw [e] at this
    simpa using this

theorem candidates_nil {h : HashOrder T} {eps init : T} {ps : List (Production T)} {g : Grammar T}
    (hg : Grammar.new h eps init ps = .ok g) {solver : Option (Solver σ L T)} {p : Parser σ L T}
    (hp : Built h g solver p) {x c : T} (hx : ¬ IsNonTerminal ps x) : candidates p.transitions x c = [] := by
  obtain ⟨ff, hff, e⟩ := (Parser.built_iff hg).1 hp
  obtain ⟨S, hS, hL⟩ := table_spec hg hff (Parser.from_eq_ok e).2.2
  unfold candidates
  rw [hS.none x c fun h => hx h.1]
  rfl

section
variable (h h₁ h₂ : HashOrder T) (eps start a b : T) (ps qs : List (Production T))
  (ha : Apart eps start a b ps qs) (ga gb : Grammar T) (hga : Grammar.new h₁ eps a ps = .ok ga)
  (hgb : Grammar.new h₂ eps b qs = .ok gb)
include ha hga hgb

/-- **C92.** Put two grammars with different non-terminals into one, with `start → a` and `start → b` for a
new symbol `start`. The new grammar is accepted, and its sentences are those of the two grammars. -/
theorem C92_grammar : (∃ g, Grammar.new h eps start (unite start a b ps qs) = .ok g) ∧
    ∀ w, Sentence eps start (unite start a b ps qs) w ↔ Sentence eps a ps w ∨ Sentence eps b qs w := by
  constructor
  · apply (Grammar.new_eq_ok_iff h eps start _).2
    have h1 := (Grammar.new_eq_ok_iff h₁ eps a ps).1 ⟨ga, hga⟩
    have h2 := (Grammar.new_eq_ok_iff h₂ eps b qs).1 ⟨gb, hgb⟩
    intro r hr
    rcases mem_unite.1 hr with rfl | rfl | hr | hr
    · exact ⟨ha.start_ne_eps, by simp, fun _ => rfl⟩
    · exact ⟨ha.start_ne_eps, by simp, fun _ => rfl⟩
    · exact h1 r hr
    · exact h2 r hr
  intro w
  constructor
  · rintro ⟨hd, hw⟩
    have hns : IsNonTerminal (unite start a b ps qs) start := ⟨⟨start, [a]⟩, by simp [unite], rfl⟩
    cases hd with
    | refl => exact absurd hns (hw start (by simp)).1.2
    | step hs hd =>
      generalize hl : [start] = l at hs
      cases hs with
      | mk u v q hq =>
        obtain ⟨rfl, e, rfl⟩ : u = [] ∧ q.input = start ∧ v = [] := by
          cases u with
          | nil => simp at hl; exact ⟨rfl, hl.1.symm, hl.2⟩
          | cons _ _ => simp at hl
        rcases mem_unite.1 hq with rfl | rfl | hq | hq
        · left
          have hr : rhs eps (⟨start, [a]⟩ : Production T) = [a] := by
            unfold rhs; rw [if_neg]; simpa using ne_eps_of_new hga ha.left
          rw [hr] at hd
          have hd' : Derives eps (ps ++ others start a b qs) [a] w :=
            Derives.mono (fun r h => (ha.mem_left r).1 h) hd
          obtain ⟨hd2, ho⟩ := ha.unused.derives hd' (by
            intro y hy; rw [List.mem_singleton.1 hy]; exact fun u hu => (ha.unused u hu).1)
          refine ⟨hd2, fun c hc => ?_⟩
          obtain ⟨⟨_, hn⟩, he⟩ := hw c hc
          have hn' : ¬ IsNonTerminal ps c := fun ⟨r, h, e⟩ => hn ⟨r, (ha.mem_left r).2 (by simp [h]), e⟩
          refine ⟨⟨?_, hn'⟩, he⟩
          rcases mem_output_of_derives hd2 hc with h | h
          · rw [List.mem_singleton.1 h] at hn'; exact absurd ha.left hn'
          · exact h
        · right
          have hr : rhs eps (⟨start, [b]⟩ : Production T) = [b] := by
            unfold rhs; rw [if_neg]; simpa using ne_eps_of_new hgb ha.right
          rw [hr] at hd
          have hd' : Derives eps (qs ++ others start b a ps) [b] w :=
            Derives.mono (fun r h => (ha.mem_right r).1 h) hd
          obtain ⟨hd2, ho⟩ := ha.symm.unused.derives hd' (by
            intro y hy; rw [List.mem_singleton.1 hy]; exact fun u hu => (ha.symm.unused u hu).1)
          refine ⟨hd2, fun c hc => ?_⟩
          obtain ⟨⟨_, hn⟩, he⟩ := hw c hc
          have hn' : ¬ IsNonTerminal qs c := fun ⟨r, h, e⟩ => hn ⟨r, (ha.mem_right r).2 (by simp [h]), e⟩
          refine ⟨⟨?_, hn'⟩, he⟩
          rcases mem_output_of_derives hd2 hc with h | h
          · rw [List.mem_singleton.1 h] at hn'; exact absurd ha.right hn'
          · exact h
        · exact absurd e (ha.new_left q hq).1
        · exact absurd e (ha.new_right q hq).1
  · rintro (⟨hd, hw⟩ | ⟨hd, hw⟩)
    · have hr : rhs eps (⟨start, [a]⟩ : Production T) = [a] := by
        unfold rhs; rw [if_neg]; simpa using ne_eps_of_new hga ha.left
      refine ⟨.step (b := [a]) ?_ (Derives.mono (fun r h => (ha.mem_left r).2 (by simp [h])) hd), ?_⟩
      · have := Step.mk (eps := eps) (ps := unite start a b ps qs) [] [] ⟨start, [a]⟩ (by simp [unite])
        rwa [hr] at this
      · intro c hc
        obtain ⟨⟨⟨r, h3, h4⟩, h5⟩, h6⟩ := hw c hc
        refine ⟨⟨⟨r, (ha.mem_left r).2 (by simp [h3]), h4⟩, ?_⟩, h6⟩
        rw [ha.unused.isNonTerminal (ha.unused.old h3 h4)] at h5
        rintro ⟨r', h7, h8⟩
        exact h5 ⟨r', (ha.mem_left r').1 h7, h8⟩
    · have hr : rhs eps (⟨start, [b]⟩ : Production T) = [b] := by
        unfold rhs; rw [if_neg]; simpa using ne_eps_of_new hgb ha.right
      refine ⟨.step (b := [b]) ?_ (Derives.mono (fun r h => (ha.mem_right r).2 (by simp [h])) hd), ?_⟩
      · have := Step.mk (eps := eps) (ps := unite start a b ps qs) [] [] ⟨start, [b]⟩ (by simp [unite])
        rwa [hr] at this
      · intro c hc
        obtain ⟨⟨⟨r, h3, h4⟩, h5⟩, h6⟩ := hw c hc
        refine ⟨⟨⟨r, (ha.mem_right r).2 (by simp [h3]), h4⟩, ?_⟩, h6⟩
        rw [ha.symm.unused.isNonTerminal (ha.symm.unused.old h3 h4)] at h5
        rintro ⟨r', h7, h8⟩
        exact h5 ⟨r', (ha.mem_right r').1 h7, h8⟩

variable (g : Grammar T) (hg : Grammar.new h eps start (unite start a b ps qs) = .ok g)
  (ffa ffb : FirstFollow T) (hffa : Returns (fun n => FirstFollow.from h₁ n ga) ffa)
  (hffb : Returns (fun n => FirstFollow.from h₂ n gb) ffb)
  (solver : Option (Solver σ L T)) (p : Parser σ L T) (hp : Built h g solver p)
include hg hp

section
include hffa hffb

open Classical in
/-- **C92**, the table: for `start` and a token there is `[a]`, if the token selects `a` in the first grammar,
and then `[b]`, if it selects `b` in the second one. -/
theorem C92_start_cells (c : T) : candidates p.transitions start c =
    (if Selects eps ffa a c then [[a]] else []) ++ (if Selects eps ffb b c then [[b]] else []) := by
  obtain ⟨ff, hff, e⟩ := (Parser.built_iff hg).1 hp
  obtain ⟨S, hS, hL⟩ := table_spec hg hff (Parser.from_eq_ok e).2.2
  have hm1 : (⟨start, [a]⟩ : Production T) ∈ unite start a b ps qs := by simp [unite]
  have hm2 : (⟨start, [b]⟩ : Production T) ∈ unite start a b ps qs := by simp [unite]
  have ka : c ∈ S ⟨start, [a]⟩ ↔ Selects eps ffa a c :=
    (hL _ hm1 c).trans (lead_unit ha.unused ha.mem_left hga hffa ha.left c)
  have kb : c ∈ S ⟨start, [b]⟩ ↔ Selects eps ffb b c :=
    (hL _ hm2 c).trans (lead_unit ha.symm.unused ha.mem_right hgb hffb ha.right c)
  unfold candidates
  by_cases hc : IsTerminal (unite start a b ps qs) c
  · rw [hS.some start c ⟨_, hm1, rfl⟩ hc]
    have hn : (ps ++ qs).filter (fun r => r.input = start ∧ c ∈ S r) = [] := by
      rw [List.filter_eq_nil_iff]
      intro r hr
      have : r.input ≠ start := by
        rcases List.mem_append.1 hr with h | h
        · exact (ha.new_left r h).1
        · exact (ha.new_right r h).1
      simp [this]
    unfold unite
    simp only [List.filter_cons, hn, true_and, ka, kb, decide_eq_true_eq]
    split <;> split <;> rfl
  · rw [hS.none start c fun h => hc h.2]
    have n1 : ¬ Selects eps ffa a c := fun h => hc (lead_isTerminal ((hL _ hm1 c).1 (ka.2 h)))
    have n2 : ¬ Selects eps ffb b c := fun h => hc (lead_isTerminal ((hL _ hm2 c).1 (kb.2 h)))
    simp [n1, n2]

end

section
variable {τ : Type} (sa : Option (Solver τ L T)) (pa : Parser τ L T) (hpa : Built h₁ ga sa pa)
  (sb : Option (Solver τ L T)) (pb : Parser τ L T) (hpb : Built h₂ gb sb pb)
include hpa hpb

/-- **C92**, the table: in the cells of the non-terminals of the two grammars there is what there is in
theirs. -/
theorem C92_cells (x c : T) :
    (IsNonTerminal ps x → candidates p.transitions x c = candidates pa.transitions x c) ∧
    (IsNonTerminal qs x → candidates p.transitions x c = candidates pb.transitions x c) := by
  constructor
  · rintro ⟨r, hr, rfl⟩
    exact ((cells_of_unused ha.unused ha.mem_left (fun _ => filter_left) hga hg hpa hp).1 _ c
      fun u hu => ((ha.unused u hu).2.1 r hr).1.symm).symm
  · rintro ⟨r, hr, rfl⟩
    exact ((cells_of_unused ha.symm.unused ha.mem_right (fun _ => filter_right) hgb hg hpb hp).1 _ c
      fun u hu => ((ha.symm.unused u hu).2.1 r hr).1.symm).symm

include hffa hffb in
/-- **C92**: the new table is free of conflicts iff the two tables are and no token selects both `a` and
`b`. -/
theorem C92_conflict_free : ConflictFree p.transitions ↔ ConflictFree pa.transitions ∧
    ConflictFree pb.transitions ∧ ∀ c, ¬ (Selects eps ffa a c ∧ Selects eps ffb b c) := by
  have hst := C92_start_cells h h₁ h₂ eps start a b ps qs ha ga gb hga hgb g hg ffa ffb hffa hffb solver p hp
  have hcl := C92_cells h h₁ h₂ eps start a b ps qs ha ga gb hga hgb g hg solver p hp sa pa hpa sb pb hpb
  rw [conflictFree_iff, conflictFree_iff, conflictFree_iff]
  constructor
  · intro hcf
    refine ⟨fun x c => ?_, fun x c => ?_, fun c ⟨h1, h2⟩ => ?_⟩
    · by_cases hx : IsNonTerminal ps x
      · rw [← (hcl x c).1 hx]; exact hcf x c
      · rw [candidates_nil hga hpa hx]; simp
    · by_cases hx : IsNonTerminal qs x
      · rw [← (hcl x c).2 hx]; exact hcf x c
      · rw [candidates_nil hgb hpb hx]; simp
    · have := hcf start c
      rw [hst c, if_pos h1, if_pos h2] at this
      simp at this
  · rintro ⟨h1, h2, h3⟩ x c
    by_cases hs : x = start
    · subst hs
      rw [hst c]
      by_cases k1 : Selects eps ffa a c
      · by_cases k2 : Selects eps ffb b c
        · exact absurd ⟨k1, k2⟩ (h3 c)
        · rw [if_pos k1, if_neg k2]; simp
      · rw [if_neg k1]
        split <;> simp
    · by_cases hx : IsNonTerminal ps x
      · rw [(hcl x c).1 hx]; exact h1 x c
      by_cases hx' : IsNonTerminal qs x
      · rw [(hcl x c).2 hx']; exact h2 x c
      rw [candidates_nil hg hp]
      · simp
      · rintro ⟨r, hr, e⟩
        rcases mem_unite.1 hr with rfl | rfl | hr | hr
        · exact hs e.symm
        · exact hs e.symm
        · exact hx ⟨r, hr, e⟩
        · exact hx' ⟨r, hr, e⟩

end

end

/-- The search for a symbol of `ps` in the united grammar is the one in `ps`. -/
theorem choice_left {h h' : HashOrder T} {eps init init' : T}
    {ps us all : List (Production T)} (hu : Unused init ps us)
    (hmem : ∀ r, r ∈ all ↔ r ∈ ps ++ us)
    (hall : ∀ A, (∀ u ∈ us, u.input ≠ A) →
      all.filter (fun p => p.input = A) = ps.filter (fun p => p.input = A))
    {τ : Type} {g g' : Grammar T} (hg : Grammar.new h eps init ps = .ok g)
    (hg' : Grammar.new h' eps init' all = .ok g') {solver : Option (Solver σ L T)}
    {solver' : Option (Solver τ L T)} {p : Parser σ L T} {p' : Parser τ L T} (hp : Built h g solver p)
    (hp' : Built h' g' solver' p') {sv : Option (Solver σ L T)} {tokens : List (Token L T)} {x c : T}
    (hx : ∀ u ∈ us, u.input ≠ x) {pos : Nat} {sg : Bool} {s : σ}
    {o : Recovery.Outcome σ (Recovery.Derived L T) (FailedSymbol L T)} :
    Recovery.Choice eps all (candidates p'.transitions) sv tokens x pos
      (candidates p'.transitions x c) sg s o ↔
    Recovery.Choice eps ps (candidates p.transitions) sv tokens x pos
      (candidates p.transitions x c) sg s o := by
  obtain ⟨h1, h2⟩ := cells_of_unused hu hmem hall hg hg' hp hp'
  have hnt : ∀ x, (∀ u ∈ us, u.input ≠ x) → (IsNonTerminal ps x ↔ IsNonTerminal all x) := by
    intro x hx
    rw [hu.isNonTerminal hx]
    unfold IsNonTerminal
    simp only [hmem]
  have h2' : ∀ x a, (∀ u ∈ us, u.input ≠ x) → ∀ o ∈ candidates p'.transitions x a, ∀ y ∈ o,
      ∀ u ∈ us, u.input ≠ y := by
    intro x a hx
    rw [← h1 x a hx]
    exact h2 x a hx
  rw [h1 x c hx]
  constructor
  · intro hc
    exact Recovery.choice_reach (O := fun x => ∀ u ∈ us, u.input ≠ x) (fun x hx => (hnt x hx).symm)
      (fun x a hx => (h1 x a hx).symm) h2' hc hx (h2' x c hx)
  · intro hc
    exact Recovery.choice_reach (O := fun x => ∀ u ∈ us, u.input ≠ x) hnt h1 h2 hc hx (h2' x c hx)

/-- What `parse_from_tokens` does, read off the search. -/
structure ReadOff (p : Parser σ L T) (tokens : List (Token L T)) (s : σ)
    (R : Recovery.Outcome σ (Recovery.Derived L T) (FailedSymbol L T) → Prop) : Prop where
  parses : ∀ r s', Parses p tokens s r s' ↔ ∃ o, R o ∧ Recovery.result o = some (r, s')
  panics : ParsePanics p tokens s ↔ R .panicked
  diverges : ParseDiverges p tokens s ↔ ¬ ∃ o, R o

theorem ReadOff.ok {p : Parser σ L T} {tokens : List (Token L T)} {s s' : σ} {R} {tree : Tree L T}
    (h : ReadOff p tokens s R) (hp : Parses p tokens s (.ok tree) s') :
    ∃ q rest, R (.found (.node tree.root q rest) s') := by
  obtain ⟨o, ho, e⟩ := (h.parses _ _).1 hp
  match o, e with
  | .found (.node n q rest) s1, e =>
    simp only [Recovery.result, Option.some.injEq, Prod.mk.injEq, ParseResult.ok.injEq] at e
    obtain ⟨rfl, rfl⟩ := e
    exact ⟨q, rest, ho⟩
  | .found (.fixed fs q) s1, e => simp [Recovery.result] at e
  | .failed f s1, e => simp [Recovery.result] at e
  | .panicked, e => simp [Recovery.result] at e

theorem ReadOff.fix {p : Parser σ L T} {tokens : List (Token L T)} {s s' : σ} {R} {fs : FixedSymbol L T}
    (h : ReadOff p tokens s R) (hp : Parses p tokens s (.fix fs) s') :
    ∃ q, R (.found (.fixed fs q) s') := by
  obtain ⟨o, ho, e⟩ := (h.parses _ _).1 hp
  match o, e with
  | .found (.node n q rest) s1, e => simp [Recovery.result] at e
  | .found (.fixed fs q) s1, e =>
    simp only [Recovery.result, Option.some.injEq, Prod.mk.injEq, ParseResult.fix.injEq] at e
    obtain ⟨rfl, rfl⟩ := e
    exact ⟨q, ho⟩
  | .failed f s1, e => simp [Recovery.result] at e
  | .panicked, e => simp [Recovery.result] at e

theorem ReadOff.err {p : Parser σ L T} {tokens : List (Token L T)} {s s' : σ} {R} {f : FailedSymbol L T}
    (h : ReadOff p tokens s R) (hp : Parses p tokens s (.err f) s') : R (.failed f s') := by
  obtain ⟨o, ho, e⟩ := (h.parses _ _).1 hp
  match o, e with
  | .found (.node n q rest) s1, e => simp [Recovery.result] at e
  | .found (.fixed fs q) s1, e => simp [Recovery.result] at e
  | .failed f s1, e =>
    simp only [Recovery.result, Option.some.injEq, Prod.mk.injEq, ParseResult.err.injEq] at e
    obtain ⟨rfl, rfl⟩ := e
    exact ho
  | .panicked, e => simp [Recovery.result] at e

section
variable {eps start : T} {ps : List (Production T)} {cand : T → T → List (List T)}
  {solver : Option (Solver σ L T)} {t : Token L T} {ts : List (Token L T)} {s : σ} {p : Parser σ L T}
  {outs : List (List T)}

open Parser.Recovery

/-- The initial symbol fails: the solver is asked. -/
theorem afterFailure_of (hr : ReadOff p (t :: ts) s
      (Recovery.Choice eps ps cand solver (t :: ts) start 0 outs true s))
    {fps : List (FailedProduction L T)} {s1 : σ}
    (halt : Recovery.Alts eps ps cand solver (t :: ts) start 0 (true && decide (outs.length = 1)) outs s
      (.failed fps s1)) (hdet : ∀ r, Recovery.Alts eps ps cand solver (t :: ts) start 0
        (true && decide (outs.length = 1)) outs s r → r = .failed fps s1) :
    AfterFailure p solver (t :: ts) s start fps s1 := by
  unfold AfterFailure
  split
  · rename_i ha
    exact (hr.parses _ _).2 ⟨_, .fixed _ _ _ _ _ _ _ _ _ halt ha, rfl⟩
  · rename_i ha
    exact (hr.parses _ _).2 ⟨_, .failed _ _ _ _ _ _ _ _ halt ha, rfl⟩
  · rename_i ha
    exact hr.panics.2 (.solverPanics _ _ _ _ _ _ _ _ halt ha)
  · rename_i ha
    refine hr.diverges.2 ?_
    rintro ⟨o, ho⟩
    obtain ⟨r, h1, h2⟩ := choice_iff.1 ho
    rw [hdet r h1] at h2
    simp only [ha] at h2

/-- One candidate, and it is one non-terminal. -/
theorem doesUnder_of {x : T} (hx : IsNonTerminal ps x) (hne : x ≠ eps)
    (hr : ReadOff p (t :: ts) s (Recovery.Choice eps ps cand solver (t :: ts) start 0 [[x]] true s))
    {px : Parser σ L T} {R : Recovery.Outcome σ (Recovery.Derived L T) (FailedSymbol L T) → Prop}
    (hrx : ReadOff px (t :: ts) s R)
    (hR : ∀ o, Recovery.Choice eps ps cand solver (t :: ts) x 0 (cand x t.tType) true s o ↔ R o)
    (hdet : ∀ o o', R o → R o' → o = o') : DoesUnder start p solver px (t :: ts) s := by
  have ht : (t :: ts)[0]? = some t := rfl
  refine ⟨?_, ?_, ?_, ?_, ?_⟩
  · intro tree s' hp
    obtain ⟨q, rest, ho⟩ := hrx.ok hp
    exact (hr.parses _ _).2 ⟨_, .derived _ _ _ _ _ _ _
      ((alts_unit hx hne ht).2 ⟨_, (hR _).2 ho, rfl⟩), rfl⟩
  · intro fs s' hp
    obtain ⟨q, ho⟩ := hrx.fix hp
    exact (hr.parses _ _).2 ⟨_, .derived _ _ _ _ _ _ _
      ((alts_unit hx hne ht).2 ⟨_, (hR _).2 ho, rfl⟩), rfl⟩
  · intro f s' hp
    have ho := hrx.err hp
    refine afterFailure_of hr ((alts_unit hx hne ht).2 ⟨_, (hR _).2 ho, _, .none _ _ _ _, rfl⟩) ?_
    intro r hr'
    obtain ⟨o, ho', e⟩ := (alts_unit hx hne ht).1 hr'
    cases hdet _ _ ((hR _).1 ho') ho
    obtain ⟨r', h1, rfl⟩ := e
    cases h1
    rfl
  · intro hp
    exact hr.panics.2 (.panicked _ _ _ _ _
      ((alts_unit hx hne ht).2 ⟨_, (hR _).2 (hrx.panics.1 hp), rfl⟩))
  · intro hp
    refine hr.diverges.2 ?_
    rintro ⟨o, ho⟩
    obtain ⟨r, h1, -⟩ := choice_iff.1 ho
    obtain ⟨o', ho', -⟩ := (alts_unit hx hne ht).1 h1
    exact hrx.diverges.1 hp ⟨o', (hR _).1 ho'⟩

/-- Two candidates, each of them one non-terminal. -/
theorem triesBoth_of {a b : T} (ha : IsNonTerminal ps a) (hae : a ≠ eps) (hb : IsNonTerminal ps b)
    (hbe : b ≠ eps)
    (hr : ReadOff p (t :: ts) s (Recovery.Choice eps ps cand solver (t :: ts) start 0 [[a], [b]] true s))
    {pa pb : Parser σ L T} {A B : Recovery.Outcome σ (Recovery.Derived L T) (FailedSymbol L T) → Prop}
    (hra : ReadOff pa (t :: ts) s A) (hrb : ReadOff pb (t :: ts) s B)
    (hA : ∀ o, Recovery.Choice eps ps cand none (t :: ts) a 0 (cand a t.tType) true s o ↔ A o)
    (hB : ∀ o, Recovery.Choice eps ps cand none (t :: ts) b 0 (cand b t.tType) true s o ↔ B o)
    (hdA : ∀ o o', A o → A o' → o = o') (hdB : ∀ o o', B o → B o' → o = o') :
    TriesBoth start p solver pa pb (t :: ts) s := by
  have ht : (t :: ts)[0]? = some t := rfl
  have hA' : ∀ o, Recovery.Choice eps ps cand solver (t :: ts) a 0 (cand a t.tType) false s o ↔ A o :=
    fun o => choice_off_iff.trans (hA o)
  have hB' : ∀ o, Recovery.Choice eps ps cand solver (t :: ts) b 0 (cand b t.tType) false s o ↔ B o :=
    fun o => choice_off_iff.trans (hB o)
  refine ⟨?_, ?_, ?_, ?_, ?_, ?_, ?_⟩
  · intro tree hp
    obtain ⟨q, rest, ho⟩ := hra.ok hp
    exact (hr.parses _ _).2 ⟨_, .derived _ _ _ _ _ _ _
      ((alts_unit ha hae ht).2 ⟨_, (hA' _).2 ho, rfl⟩), rfl⟩
  · intro hp
    exact hr.panics.2 (.panicked _ _ _ _ _
      ((alts_unit ha hae ht).2 ⟨_, (hA' _).2 (hra.panics.1 hp), rfl⟩))
  · intro hp
    refine hr.diverges.2 ?_
    rintro ⟨o, ho⟩
    obtain ⟨r, h1, -⟩ := choice_iff.1 ho
    obtain ⟨o', ho', -⟩ := (alts_unit ha hae ht).1 h1
    exact hra.diverges.1 hp ⟨o', (hA' _).1 ho'⟩
  · intro f tree hpa hpb
    obtain ⟨q, rest, ho⟩ := hrb.ok hpb
    exact (hr.parses _ _).2 ⟨_, .derived _ _ _ _ _ _ _
      ((alts_unit ha hae ht).2 ⟨_, (hA' _).2 (hra.err hpa), _,
        (alts_unit hb hbe ht).2 ⟨_, (hB' _).2 ho, rfl⟩, rfl⟩), rfl⟩
  · intro f hpa hpb
    exact hr.panics.2 (.panicked _ _ _ _ _
      ((alts_unit ha hae ht).2 ⟨_, (hA' _).2 (hra.err hpa), _,
        (alts_unit hb hbe ht).2 ⟨_, (hB' _).2 (hrb.panics.1 hpb), rfl⟩, rfl⟩))
  · intro f hpa hpb
    refine hr.diverges.2 ?_
    rintro ⟨o, ho⟩
    obtain ⟨r, h1, -⟩ := choice_iff.1 ho
    obtain ⟨o', ho', e⟩ := (alts_unit ha hae ht).1 h1
    cases hdA _ _ ((hA' _).1 ho') (hra.err hpa)
    obtain ⟨r', h2, -⟩ := e
    obtain ⟨o'', ho'', -⟩ := (alts_unit hb hbe ht).1 h2
    exact hrb.diverges.1 hpb ⟨o'', (hB' _).1 ho''⟩
  · intro f f' hpa hpb
    refine afterFailure_of hr ((alts_unit ha hae ht).2 ⟨_, (hA' _).2 (hra.err hpa), _,
        (alts_unit hb hbe ht).2 ⟨_, (hB' _).2 (hrb.err hpb), _, .none _ _ _ _, rfl⟩, rfl⟩) ?_
    intro r hr'
    obtain ⟨o', ho', e⟩ := (alts_unit ha hae ht).1 hr'
    cases hdA _ _ ((hA' _).1 ho') (hra.err hpa)
    obtain ⟨r', h2, rfl⟩ := e
    obtain ⟨o'', ho'', e⟩ := (alts_unit hb hbe ht).1 h2
    cases hdB _ _ ((hB' _).1 ho'') (hrb.err hpb)
    obtain ⟨r'', h3, rfl⟩ := e
    cases h3
    rfl

end

theorem readOff_of_built {h : HashOrder T} {eps init : T} {ps : List (Production T)} {g : Grammar T}
    (hg : Grammar.new h eps init ps = .ok g) {solver : Option (Solver σ L T)} {p : Parser σ L T}
    (hp : Built h g solver p) (t : Token L T) (ts : List (Token L T)) (s : σ) :
    ReadOff p (t :: ts) s (Recovers eps init ps p solver t ts s) := by
  obtain ⟨h1, h2, h3⟩ := C38_exact_result h eps init ps g hg solver p hp t ts s
  exact ⟨h1, h2, h3⟩

section
variable (h h₁ h₂ : HashOrder T) (eps start a b : T) (ps qs : List (Production T))
  (ha : Apart eps start a b ps qs) (ga gb g : Grammar T) (hga : Grammar.new h₁ eps a ps = .ok ga)
  (hgb : Grammar.new h₂ eps b qs = .ok gb)
  (hg : Grammar.new h eps start (unite start a b ps qs) = .ok g)
  (ffa ffb : FirstFollow T) (hffa : Returns (fun n => FirstFollow.from h₁ n ga) ffa)
  (hffb : Returns (fun n => FirstFollow.from h₂ n gb) ffb)
  (solver : Option (Solver σ L T)) (p : Parser σ L T) (hp : Built h g solver p)
include ha hga hgb hg hffa hffb hp

/-- **C92**, one of the grammars selected: if the first token selects `a` but not `b`, the parser does what
the parser of the first grammar does, with the same solver. -/
theorem C92_first_only (pa : Parser σ L T) (hpa : Built h₁ ga solver pa) (t : Token L T)
    (ts : List (Token L T)) (s : σ) (h1 : Selects eps ffa a t.tType) (h2 : ¬ Selects eps ffb b t.tType) :
    DoesUnder start p solver pa (t :: ts) s := by
  have hc := C92_start_cells h h₁ h₂ eps start a b ps qs ha ga gb hga hgb g hg ffa ffb hffa hffb solver p hp
    t.tType
  rw [if_pos h1, if_neg h2] at hc
  have hr := readOff_of_built hg hp t ts s
  unfold Recovers at hr
  rw [hc] at hr
  have hxu : ∀ u ∈ others start a b qs, u.input ≠ a := fun u hu => (ha.unused u hu).1
  refine doesUnder_of ?_ (ne_eps_of_new hga ha.left) hr (readOff_of_built hga hpa t ts s)
    (fun o => choice_left ha.unused ha.mem_left (fun _ => filter_left) hga hg hpa hp hxu)
    (C38_search_deterministic h₁ eps a ps ga hga solver pa hpa t ts s)
  obtain ⟨r, hr, e⟩ := ha.left
  exact ⟨r, (ha.mem_left r).2 (by simp [hr]), e⟩

/-- … and if it selects `b` but not `a`, what the parser of the second grammar does. -/
theorem C92_second_only (pb : Parser σ L T) (hpb : Built h₂ gb solver pb) (t : Token L T)
    (ts : List (Token L T)) (s : σ) (h1 : ¬ Selects eps ffa a t.tType) (h2 : Selects eps ffb b t.tType) :
    DoesUnder start p solver pb (t :: ts) s := by
  have hc := C92_start_cells h h₁ h₂ eps start a b ps qs ha ga gb hga hgb g hg ffa ffb hffa hffb solver p hp
    t.tType
  rw [if_neg h1, if_pos h2] at hc
  have hr := readOff_of_built hg hp t ts s
  unfold Recovers at hr
  rw [hc] at hr
  have hxu : ∀ u ∈ others start b a ps, u.input ≠ b := fun u hu => (ha.symm.unused u hu).1
  refine doesUnder_of ?_ (ne_eps_of_new hgb ha.right) hr (readOff_of_built hgb hpb t ts s)
    (fun o => choice_left ha.symm.unused ha.mem_right (fun _ => filter_right) hgb hg hpb hp hxu)
    (C38_search_deterministic h₂ eps b qs gb hgb solver pb hpb t ts s)
  obtain ⟨r, hr, e⟩ := ha.right
  exact ⟨r, (ha.mem_right r).2 (by simp [hr]), e⟩

/-- **C92**, both selected: the parser tries the first grammar, and if that fails the second one, both without
the solver; the solver is asked if both fail. -/
theorem C92_both (pa pb : Parser σ L T) (hpa : Built h₁ ga none pa) (hpb : Built h₂ gb none pb)
    (t : Token L T) (ts : List (Token L T)) (s : σ) (h1 : Selects eps ffa a t.tType)
    (h2 : Selects eps ffb b t.tType) : TriesBoth start p solver pa pb (t :: ts) s := by
  have hc := C92_start_cells h h₁ h₂ eps start a b ps qs ha ga gb hga hgb g hg ffa ffb hffa hffb solver p hp
    t.tType
  rw [if_pos h1, if_pos h2] at hc
  have hr := readOff_of_built hg hp t ts s
  unfold Recovers at hr
  rw [hc] at hr
  have hau : ∀ u ∈ others start a b qs, u.input ≠ a := fun u hu => (ha.unused u hu).1
  have hbu : ∀ u ∈ others start b a ps, u.input ≠ b := fun u hu => (ha.symm.unused u hu).1
  refine triesBoth_of ?_ (ne_eps_of_new hga ha.left) ?_ (ne_eps_of_new hgb ha.right) hr
    (readOff_of_built hga hpa t ts s) (readOff_of_built hgb hpb t ts s)
    (fun o => choice_left ha.unused ha.mem_left (fun _ => filter_left) hga hg hpa hp hau)
    (fun o => choice_left ha.symm.unused ha.mem_right (fun _ => filter_right) hgb hg hpb hp hbu)
    (C38_search_deterministic h₁ eps a ps ga hga none pa hpa t ts s)
    (C38_search_deterministic h₂ eps b qs gb hgb none pb hpb t ts s)
  · obtain ⟨r, hr, e⟩ := ha.left
    exact ⟨r, (ha.mem_left r).2 (by simp [hr]), e⟩
  · obtain ⟨r, hr, e⟩ := ha.right
    exact ⟨r, (ha.mem_right r).2 (by simp [hr]), e⟩

/-- **C92**, none selected: the solver is asked at once, with no report. -/
theorem C92_neither (t : Token L T) (ts : List (Token L T)) (s : σ) (h1 : ¬ Selects eps ffa a t.tType)
    (h2 : ¬ Selects eps ffb b t.tType) : AfterFailure p solver (t :: ts) s start [] s := by
  have hc := C92_start_cells h h₁ h₂ eps start a b ps qs ha ga gb hga hgb g hg ffa ffb hffa hffb solver p hp
    t.tType
  rw [if_neg h1, if_neg h2] at hc
  have hr := readOff_of_built hg hp t ts s
  unfold Recovers at hr
  rw [hc] at hr
  refine afterFailure_of hr (.none _ _ _ _) ?_
  intro r hr'
  cases hr'
  rfl

end

/-- The hypotheses of C92 are met: `A → a b` and `B → a c | d`, with `S → A` and `S → B`. The token `a` selects
both, `d` only `B`, and `b` neither. On `a c` the first grammar fails and the second one succeeds. -/
example : ∃ ga gb g ffa ffb pa pb p f tree,
    Apart 0 1 2 3 [⟨2, [10, 11]⟩] [(⟨3, [10, 12]⟩ : Production Nat), ⟨3, [13]⟩] ∧
    Grammar.new (HashOrder.id Nat) 0 2 [⟨2, [10, 11]⟩] = .ok ga ∧
    Grammar.new (HashOrder.id Nat) 0 3 [⟨3, [10, 12]⟩, ⟨3, [13]⟩] = .ok gb ∧
    Grammar.new (HashOrder.id Nat) 0 1 (unite 1 2 3 [⟨2, [10, 11]⟩] [⟨3, [10, 12]⟩, ⟨3, [13]⟩]) = .ok g ∧
    Returns (fun n => FirstFollow.from (HashOrder.id Nat) n ga) ffa ∧
    Returns (fun n => FirstFollow.from (HashOrder.id Nat) n gb) ffb ∧
    Built (σ := Unit) (L := Unit) (HashOrder.id Nat) ga none pa ∧
    Built (σ := Unit) (L := Unit) (HashOrder.id Nat) gb none pb ∧
    Built (σ := Unit) (L := Unit) (HashOrder.id Nat) g none p ∧
    Selects 0 ffa 2 10 ∧ Selects 0 ffb 3 10 ∧ ¬ Selects 0 ffa 2 13 ∧ Selects 0 ffb 3 13 ∧
    ¬ Selects 0 ffa 2 11 ∧ ¬ Selects 0 ffb 3 11 ∧
    Parses pa [⟨none, 10⟩, ⟨none, 12⟩] () (.err f) () ∧
    Parses pb [⟨none, 10⟩, ⟨none, 12⟩] () (.ok tree) () ∧
    Parses p [⟨none, 10⟩, ⟨none, 12⟩] () (.ok (under 1 tree)) () := by
  have hff : ∀ {x c : Nat} (ff : FirstFollow Nat) (fi fo : List Nat),
      ff.getFirstSymbols x = some fi → ff.getFollowSymbols x = some fo →
      (Selects 0 ff x c ↔ (c ∈ fi ∧ c ≠ 0) ∨ (0 ∈ fi ∧ c ∈ fo)) := by
    intro x c ff fi fo h1 h2
    constructor
    · rintro ⟨fi', fo', e1, e2, h⟩
      rw [h1] at e1; cases e1
      rw [h2] at e2; cases e2
      exact h
    · exact fun h => ⟨fi, fo, h1, h2, h⟩
  refine ⟨_, _, _, _, _, _, _, _, _, _, ?_, rfl, rfl, rfl, FirstFollow.returns_of_from (n := 5) rfl,
    FirstFollow.returns_of_from (n := 5) rfl, Parser.built_of_eval (n := 10) rfl,
    Parser.built_of_eval (n := 10) rfl, Parser.built_of_eval (n := 10) rfl, ?_, ?_, ?_, ?_, ?_, ?_,
    Parser.parse_returns (n := 20) rfl, Parser.parse_returns (n := 20) rfl,
    Parser.parse_returns (n := 20) rfl⟩
  · exact ⟨⟨_, List.mem_cons_self, rfl⟩, ⟨_, List.mem_cons_self, rfl⟩, by simp, by decide, by simp, by simp⟩
  all_goals first
    | exact (hff _ [10] [] rfl rfl).2 (by decide)
    | exact (hff _ [10, 13] [] rfl rfl).2 (by decide)
    | (rw [hff _ [10] [] rfl rfl]; decide)
    | (rw [hff _ [10, 13] [] rfl rfl]; decide)

end Verif.Props
