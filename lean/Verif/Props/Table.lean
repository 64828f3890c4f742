import Verif.Proof.Transitions
import Verif.Props.FirstFollow

/-!
# Properties C11 (table half)–C14: `RecursiveDescentParserTransitions`
-/

set_option linter.unusedSectionVars false

namespace Verif.Props

open Verif.Spec Verif.Examples

variable {T : Type} [DecidableEq T]

open Transitions in
/-- What `RecursiveDescentParserTransitions::from` returns satisfies the specification used below. -/
theorem table_spec {h : HashOrder T} {eps init : T} {ps : List (Production T)}
    {g : Grammar T} (hg : Grammar.new h eps init ps = .ok g) {ff : FirstFollow T}
    (hff : Returns (fun n => FirstFollow.from h n g) ff) {t : Transitions T}
    (ht : Transitions.from h g ff = .ok t) :
    ∃ S, TableOf ps S t ∧ ∀ p ∈ ps, ∀ a, a ∈ S p ↔ Lead eps ps p a := by
  obtain ⟨t', S, h1, h2, h3⟩ := from_spec (Grammar.grammarOf_of_new hg) h (first_follow_spec hg hff)
  rw [ht] at h1
  cases h1
  exact ⟨S, h2, h3⟩

theorem mem_cell_iff {h : HashOrder T} {eps init : T} {ps : List (Production T)}
    {g : Grammar T} (hg : Grammar.new h eps init ps = .ok g) {ff : FirstFollow T}
    (hff : Returns (fun n => FirstFollow.from h n g) ff) {t : Transitions T}
    (ht : Transitions.from h g ff = .ok t) {p : Production T} (hp : p ∈ ps) (a : T) :
    (∃ l, t.getProductions p.input a = some l ∧ p ∈ l) ↔ Transitions.Lead eps ps p a := by
  obtain ⟨S, hS, hL⟩ := table_spec hg hff ht
  by_cases ha : IsTerminal ps a
  · rw [hS.some p.input a ⟨p, hp, rfl⟩ ha]
    simp [hp, hL p hp]
  · rw [hS.none p.input a (fun h' => ha h'.2)]
    simp only [reduceCtorEq, false_and, exists_false, false_iff]
    exact fun h' => ha h'.isTerminal.1

/-- **C12.** Table construction returns; the cell of `(A, a)` exists iff `A` is a non-terminal and
`a` a terminal, then consists of the productions of `A` that are in it, in grammar order and each as
often as the grammar lists it, and the `eps` column is empty. -/
theorem C12_table_cells (h : HashOrder T) (eps init : T) (ps : List (Production T))
    (g : Grammar T) (hg : Grammar.new h eps init ps = .ok g) (ff : FirstFollow T)
    (hff : Returns (fun n => FirstFollow.from h n g) ff) :
    ∃ t, Transitions.from h g ff = .ok t ∧
      (∀ A a, (t.getProductions A a).isSome ↔ IsNonTerminal ps A ∧ IsTerminal ps a) ∧
      (∀ A a l, t.getProductions A a = some l →
        l = (ps.filter (fun p => p.input = A)).filter (fun p => p ∈ l)) ∧
      (∀ A l, t.getProductions A eps = some l → l = []) := by
  obtain ⟨t, S, ht, hS, hL⟩ :=
    Transitions.from_spec (Grammar.grammarOf_of_new hg) h (first_follow_spec hg hff)
  have hcell : ∀ A a l, t.getProductions A a = some l →
      l = ps.filter (fun q => q.input = A ∧ a ∈ S q) := by
    intro A a l hl
    by_cases hc : IsNonTerminal ps A ∧ IsTerminal ps a
    · rw [hS.some A a hc.1 hc.2] at hl
      exact (Option.some.inj hl).symm
    · rw [hS.none A a hc] at hl
      simp at hl
  refine ⟨t, ht, ?_, ?_, ?_⟩
  · intro A a
    by_cases hc : IsNonTerminal ps A ∧ IsTerminal ps a
    · rw [hS.some A a hc.1 hc.2]; simpa using hc
    · rw [hS.none A a hc]; simpa using hc
  · intro A a l hl
    have e := hcell A a l hl
    rw [List.filter_filter]
    refine e.trans (List.filter_congr fun q hq => ?_)
    have hm : q ∈ l ↔ q.input = A ∧ a ∈ S q := by rw [e]; simp [hq]
    by_cases h1 : q.input = A <;> by_cases h2 : q ∈ l <;> simp_all
  · intro A l hl
    rw [hcell A eps l hl, List.filter_eq_nil_iff]
    intro q hq
    simp only [decide_eq_true_eq, not_and]
    intro _ hc
    exact ((hL q hq eps).1 hc).isTerminal.2 rfl

/-- **C11**, the table: under any two hash orders every cell holds the same list. -/
theorem C11_table_hash_independent (h h' : HashOrder T) (eps init : T)
    (ps : List (Production T)) (g g' : Grammar T) (ff ff' : FirstFollow T) (t t' : Transitions T)
    (hg : Grammar.new h eps init ps = .ok g) (hg' : Grammar.new h' eps init ps = .ok g')
    (hff : Returns (fun n => FirstFollow.from h n g) ff)
    (hff' : Returns (fun n => FirstFollow.from h' n g') ff')
    (ht : Transitions.from h g ff = .ok t) (ht' : Transitions.from h' g' ff' = .ok t') (A a : T) :
    t.getProductions A a = t'.getProductions A a := by
  obtain ⟨S, hS, hL⟩ := table_spec hg hff ht
  obtain ⟨S', hS', hL'⟩ := table_spec hg' hff' ht'
  by_cases hc : IsNonTerminal ps A ∧ IsTerminal ps a
  · rw [hS.some A a hc.1 hc.2, hS'.some A a hc.1 hc.2]
    congr 1
    apply List.filter_congr
    intro q hq
    rw [decide_eq_decide, hL q hq, hL' q hq]
  · rw [hS.none A a hc, hS'.none A a hc]

/-- The hypotheses are met, and cells differ from the empty list: `E' → + T E'` on `+`, `E' → ε`
on `)`, nothing on `*`. -/
example : ∃ g ff t, Grammar.new (HashOrder.rev Nat) 0 1 exprPs = .ok g ∧
    FirstFollow.from (HashOrder.rev Nat) 10 g = .ok ff ∧
    Transitions.from (HashOrder.rev Nat) g ff = .ok t ∧
    t.getProductions 3 11 = some [⟨3, [11, 4, 3]⟩] ∧ t.getProductions 3 14 = some [⟨3, [0]⟩] ∧
    t.getProductions 3 12 = some [] ∧ t.getProductions 3 0 = some [] ∧
    t.getProductions 11 3 = none := by
  refine ⟨_, _, _, rfl, rfl, rfl, rfl, rfl, rfl, rfl, rfl⟩

/-! ## Completeness -/

theorem first_or_follow {eps : T} {ps : List (Production T)} {p : Production T} (hp : p ∈ ps)
    {x a : T} (hx : IsNonTerminal ps x) (t u : List T) (hr : rhs eps p = u ++ x :: t)
    (hf : StrFirst eps ps t a) : CanStart eps ps x a ∨ FollowRule eps ps x a := by
  induction t generalizing u with
  | nil => exact absurd hf not_strFirst_nil
  | cons y t ih =>
    by_cases hy : y = x
    · subst hy
      rw [strFirst_cons] at hf
      rcases hf with hf | ⟨_, hf⟩
      · exact .inl hf
      · exact ih (u ++ [y]) (by simp [hr]) hf
    · exact .inr (.first hp hr hx (by simpa using hy) hf)

theorem lead_of_first {eps : T} {ps : List (Production T)} {p : Production T} (hp : p ∈ ps) {a : T}
    (hf : StrFirst eps ps (rhs eps p) a) : Transitions.Lead eps ps p a := by
  cases hr : rhs eps p with
  | nil => rw [hr] at hf; exact absurd hf not_strFirst_nil
  | cons x t =>
    refine .inr ⟨x, t, hr, ?_⟩
    rw [hr, strFirst_cons] at hf
    rcases hf with hf | ⟨hn, hf⟩
    · exact .inl hf
    · have hx : IsNonTerminal ps x := by
        by_contra hc
        exact FirstFollow.terminal_not_nullable hc hn
      rcases first_or_follow hp hx t [] hr hf with h' | h'
      · exact .inl h'
      · exact .inr ⟨hn, h'⟩

theorem lead_of_nullable {eps : T} {ps : List (Production T)} {p : Production T} (hp : p ∈ ps) {a : T}
    (hn : StrNullable eps ps (rhs eps p)) (hf : FollowRule eps ps p.input a) :
    Transitions.Lead eps ps p a := by
  cases hr : rhs eps p with
  | nil => exact .inl ⟨hr, hf⟩
  | cons x t =>
    refine .inr ⟨x, t, hr, ?_⟩
    rw [hr, strNullable_cons] at hn
    have hx : IsNonTerminal ps x := by
      by_contra hc
      exact FirstFollow.terminal_not_nullable hc hn.1
    exact .inr ⟨hn.1, .last (u := []) hp hr hx hn.2 hf⟩

/-- **C13**, FIRST half, without restriction: if the right-hand side of `A → α` derives a form that
begins with the terminal `a`, the production is in the cell `(A, a)`. -/
theorem C13_table_first_complete (h : HashOrder T) (eps init : T) (ps : List (Production T))
    (g : Grammar T) (hg : Grammar.new h eps init ps = .ok g) (ff : FirstFollow T)
    (hff : Returns (fun n => FirstFollow.from h n g) ff) (t : Transitions T)
    (ht : Transitions.from h g ff = .ok t) (p : Production T) (hp : p ∈ ps) (a : T)
    (ha : IsTerminal ps a) (hne : a ≠ eps) (v : List T)
    (hd : Derives eps ps (rhs eps p) (a :: v)) :
    ∃ l, t.getProductions p.input a = some l ∧ p ∈ l :=
  (mem_cell_iff hg hff ht hp a).2 (lead_of_first hp (strFirst_of_derives ha hne hd))

/-- **C13**, FOLLOW half, relative to the computed FOLLOW sets and without restriction. -/
theorem C13_table_computed_follow_complete (h : HashOrder T) (eps init : T)
    (ps : List (Production T)) (g : Grammar T) (hg : Grammar.new h eps init ps = .ok g)
    (ff : FirstFollow T) (hff : Returns (fun n => FirstFollow.from h n g) ff) (t : Transitions T)
    (ht : Transitions.from h g ff = .ok t) (p : Production T) (hp : p ∈ ps) (a : T) (s : List T)
    (hs : ff.getFollowSymbols p.input = some s) (ha : a ∈ s) (hd : Derives eps ps (rhs eps p) []) :
    ∃ l, t.getProductions p.input a = some l ∧ p ∈ l :=
  (mem_cell_iff hg hff ht hp a).2 (lead_of_nullable hp (derives_nil_iff.1 hd)
    ((follow_mem_iff hg hff ⟨p, hp, rfl⟩ a).1 ⟨s, hs, ha⟩))

/-- **C13**, for grammars without two equal adjacent non-terminals. Missing: the other grammars, for
which the FOLLOW half is false of the pinned code (`C13_table_incomplete`). -/
theorem C13_table_complete_partial (h : HashOrder T) (eps init : T) (ps : List (Production T))
    (g : Grammar T) (hg : Grammar.new h eps init ps = .ok g) (ff : FirstFollow T)
    (hff : Returns (fun n => FirstFollow.from h n g) ff) (t : Transitions T)
    (ht : Transitions.from h g ff = .ok t) (hadj : NoAdjacentRepeat ps) (p : Production T)
    (hp : p ∈ ps) (a : T) (ha : IsTerminal ps a) (hne : a ≠ eps)
    (hd : (∃ v, Derives eps ps (rhs eps p) (a :: v)) ∨
      (Derives eps ps (rhs eps p) [] ∧
        ∃ n u v, IsNonTerminal ps n ∧ Derives eps ps [n] (u ++ p.input :: a :: v))) :
    ∃ l, t.getProductions p.input a = some l ∧ p ∈ l := by
  rcases hd with ⟨v, hd⟩ | ⟨hd, n, u, v, hn, hd'⟩
  · exact C13_table_first_complete h eps init ps g hg ff hff t ht p hp a ha hne v hd
  · exact (mem_cell_iff hg hff ht hp a).2 (lead_of_nullable hp (derives_nil_iff.1 hd)
      (followRule_complete hadj ⟨p, hp, rfl⟩ ⟨ha, hne, n, u, v, hn, hd'⟩))

/-- **C13 is false of the pinned code**: for `S → X X $`, `X → a Z`, `Z → b | ε` the cell `(Z, a)` is
empty although `Z → ε` and `a` follows `Z` in `a Z a Z $`. -/
theorem C13_table_incomplete :
    ∃ g ff t, Grammar.new (HashOrder.id Nat) 0 1 twicePs = .ok g ∧
      Returns (fun n => FirstFollow.from (HashOrder.id Nat) n g) ff ∧
      Transitions.from (HashOrder.id Nat) g ff = .ok t ∧
      t.getProductions 3 10 = some [] ∧ ⟨3, [0]⟩ ∈ twicePs ∧ CanFollow 0 twicePs 3 10 := by
  obtain ⟨_, _, _, _, _, _, _, _, hc⟩ := C09_follow_incomplete
  exact ⟨_, _, _, rfl, FirstFollow.returns_of_from (n := 5) rfl, rfl, rfl, by decide, hc⟩

/-! ## Precision -/

/-- What the cells are exactly: the production `A → α` is in cell `(A, a)` iff `α` is empty and `a`
is in FOLLOW(`A`), or `α` begins with a symbol `x` that can start with `a`, or that is nullable and
has `a` in FOLLOW(`x`). FOLLOW are the computed sets. -/
theorem C14_table_exact (h : HashOrder T) (eps init : T) (ps : List (Production T))
    (g : Grammar T) (hg : Grammar.new h eps init ps = .ok g) (ff : FirstFollow T)
    (hff : Returns (fun n => FirstFollow.from h n g) ff) (t : Transitions T)
    (ht : Transitions.from h g ff = .ok t) (p : Production T) (hp : p ∈ ps) (a : T) :
    (∃ l, t.getProductions p.input a = some l ∧ p ∈ l) ↔
      (p.output = [eps] ∧ ∃ s, ff.getFollowSymbols p.input = some s ∧ a ∈ s) ∨
      (∃ x r, p.output = x :: r ∧ x ≠ eps ∧
        (CanStart eps ps x a ∨
          (Nullable eps ps x ∧ ∃ s, ff.getFollowSymbols x = some s ∧ a ∈ s))) := by
  have G := Grammar.grammarOf_of_new hg
  rw [mem_cell_iff hg hff ht hp a]
  unfold Transitions.Lead
  rw [Transitions.rhs_eq_nil_iff G hp, follow_mem_iff hg hff ⟨p, hp, rfl⟩ a]
  refine or_congr_right ?_
  constructor
  · rintro ⟨x, r, hr, h'⟩
    have ho := rhs_eq_output_of_mem (u := []) hr
    refine ⟨x, r, ho, FirstFollow.mem_rhs_ne_eps G hp (by rw [hr]; simp), ?_⟩
    rcases h' with h' | ⟨hn, h'⟩
    · exact .inl h'
    · have hx : IsNonTerminal ps x := by
        by_contra hc
        exact FirstFollow.terminal_not_nullable hc hn
      exact .inr ⟨hn, (follow_mem_iff hg hff hx a).2 h'⟩
  · rintro ⟨x, r, ho, hne, h'⟩
    refine ⟨x, r, ?_, ?_⟩
    · unfold rhs
      rw [if_neg, ho]
      rw [ho]; intro e; simp at e; exact hne e.1
    · rcases h' with h' | ⟨hn, h'⟩
      · exact .inl h'
      · have hx : IsNonTerminal ps x := by
          by_contra hc
          exact FirstFollow.terminal_not_nullable hc hn
        exact .inr ⟨hn, (follow_mem_iff hg hff hx a).1 h'⟩

/-- **C14**, for productions whose first symbol is not a nullable non-terminal: they are in the cell
`(A, a)` only if Algorithm 4.31 puts them there. Missing: productions with a nullable leading
non-terminal, for which the claim is false of the pinned code (`C14_table_imprecise`); for them
`C14_table_exact` is what holds. -/
theorem C14_table_precise_partial (h : HashOrder T) (eps init : T) (ps : List (Production T))
    (g : Grammar T) (hg : Grammar.new h eps init ps = .ok g) (ff : FirstFollow T)
    (hff : Returns (fun n => FirstFollow.from h n g) ff) (t : Transitions T)
    (ht : Transitions.from h g ff = .ok t) (p : Production T) (hp : p ∈ ps) (a : T)
    (hlead : ∀ x r, rhs eps p = x :: r → ¬ Derives eps ps [x] [])
    (l : List (Production T)) (hl : t.getProductions p.input a = some l) (hpl : p ∈ l) :
    (∃ v, Derives eps ps (rhs eps p) (a :: v)) ∨
      (Derives eps ps (rhs eps p) [] ∧
        ∃ n u v, IsNonTerminal ps n ∧ Derives eps ps [n] (u ++ p.input :: a :: v)) := by
  rcases (mem_cell_iff hg hff ht hp a).1 ⟨l, hl, hpl⟩ with ⟨hr, h'⟩ | ⟨x, r, hr, h' | ⟨hn, h'⟩⟩
  · rw [hr]
    obtain ⟨_, _, h''⟩ := h'.canFollow
    exact .inr ⟨.refl _, h''⟩
  · left
    have : StrFirst eps ps (rhs eps p) a := by rw [hr, strFirst_cons]; exact .inl h'
    exact this.derives
  · exact absurd hn (hlead x r hr)

/-- **C14 is false of the pinned code**: for `S → A x | B y | z A y` with `A → ε`, `B → ε` the cell
`(S, y)` contains `S → A x`, although `A x` neither derives a form beginning with `y` nor the empty
string. -/
theorem C14_table_imprecise :
    ∃ g ff t, Grammar.new (HashOrder.id Nat) 0 1 leadPs = .ok g ∧
      Returns (fun n => FirstFollow.from (HashOrder.id Nat) n g) ff ∧
      Transitions.from (HashOrder.id Nat) g ff = .ok t ∧
      t.getProductions 1 11 = some [⟨1, [2, 10]⟩, ⟨1, [3, 11]⟩] ∧
      (¬ ∃ v, Derives 0 leadPs [2, 10] (11 :: v)) ∧ ¬ Derives 0 leadPs [2, 10] [] := by
  have h10 : ¬ IsNonTerminal leadPs 10 := by unfold IsNonTerminal; decide
  have h2 : ∀ c, Derives 0 leadPs [2] c → c = [2] ∨ c = [] := by
    intro c hc
    cases hc with
    | refl => exact .inl rfl
    | step s d =>
      obtain ⟨p, hp, hi, rfl⟩ := s.single
      right
      have : ∀ p ∈ leadPs, p.input = 2 → rhs 0 p = [] := by decide
      rw [this p hp hi] at d
      exact d.nil_eq
  have hd : ∀ c, Derives 0 leadPs [2, 10] c → c = [2, 10] ∨ c = [10] := by
    intro c hc
    obtain ⟨c1, c2, rfl, d1, d2⟩ := hc.cons_split
    rw [d2.terminal_eq h10]
    rcases h2 c1 d1 with rfl | rfl <;> simp
  refine ⟨_, _, _, rfl, FirstFollow.returns_of_from (n := 5) rfl, rfl, rfl, ?_, ?_⟩
  · rintro ⟨v, hv⟩
    rcases hd _ hv with h' | h' <;> simp at h'
  · intro hv
    rcases hd _ hv with h' | h' <;> simp at h'

/-- Every production of the expression grammar meets the hypothesis of `C14_table_precise_partial`:
its leading symbols `E`, `+`, `T`, … are not nullable (shown for `T → F T'`). -/
example : ⟨4, [6, 5]⟩ ∈ exprPs ∧ ∀ x r, rhs 0 (⟨4, [6, 5]⟩ : Production Nat) = x :: r →
    ¬ Derives 0 exprPs [x] [] := by
  refine ⟨by decide, ?_⟩
  intro x r hr hd
  have : rhs 0 (⟨4, [6, 5]⟩ : Production Nat) = [6, 5] := by decide
  rw [this] at hr
  simp only [List.cons.injEq] at hr
  obtain ⟨rfl, _⟩ := hr
  cases hd with
  | step s d =>
    obtain ⟨p, hp, hi, rfl⟩ := s.single
    have hne : ∀ p ∈ exprPs, p.input = 6 → (rhs 0 p).head? = some 13 ∨ (rhs 0 p).head? = some 15 := by
      decide
    have hcase := hne p hp hi
    have hT : ∀ y, y = 13 ∨ y = 15 → ¬ IsNonTerminal exprPs y := by
      rintro y (rfl | rfl) <;> (unfold IsNonTerminal; decide)
    rw [derives_nil_iff] at d
    cases hrp : rhs 0 p with
    | nil => rw [hrp] at hcase; simp at hcase
    | cons y r =>
      rw [hrp] at hcase d
      simp only [List.head?_cons, Option.some.injEq] at hcase
      exact FirstFollow.terminal_not_nullable (hT y hcase) (d y (by simp))

end Verif.Props
