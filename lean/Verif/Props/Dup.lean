import Verif.Proof.Dup

/-!
# Property C53: listing a production once more
-/

set_option linter.unusedSectionVars false

namespace Verif.Props

open Verif.Spec Verif.Examples

variable {σ L T : Type} [DecidableEq T]

/-- The candidates of the two parsers decide every ordered search in the same way. -/
theorem sameRuns_of_duplicate {h h' : HashOrder T} {eps init : T} {u v : List (Production T)}
    {q : Production T} (hq : q ∈ u) {g g' : Grammar T}
    (hg : Grammar.new h eps init (u ++ v) = .ok g)
    (hg' : Grammar.new h' eps init (u ++ q :: v) = .ok g') {solver solver' : Option (Solver σ L T)}
    {p p' : Parser σ L T} (hp : Built h g solver p) (hp' : Built h' g' solver' p') (x a : T) :
    SameRuns (candidates p.transitions x a) (candidates p'.transitions x a) ∧
    SameRuns (candidates p'.transitions x a) (candidates p.transitions x a) := by
  have hmem : ∀ r, r ∈ u ++ v ↔ r ∈ u ++ q :: v := by
    intro r
    simp only [List.mem_append, List.mem_cons]
    constructor
    · rintro (h | h)
      · exact .inl h
      · exact .inr (.inr h)
    · rintro (h | rfl | h)
      · exact .inl h
      · exact .inl hq
      · exact .inr h
  obtain ⟨ff, hff, e⟩ := (Parser.built_iff hg).1 hp
  obtain ⟨ff', hff', e'⟩ := (Parser.built_iff hg').1 hp'
  obtain ⟨S, hS, hL⟩ := table_spec hg hff (Parser.from_eq_ok e).2.2
  obtain ⟨S', hS', hL'⟩ := table_spec hg' hff' (Parser.from_eq_ok e').2.2
  have hnt := isNonTerminal_congr hmem x
  have htm := isTerminal_congr hmem a
  unfold candidates
  by_cases hc : IsNonTerminal (u ++ v) x ∧ IsTerminal (u ++ v) a
  · rw [hS.some x a hc.1 hc.2, hS'.some x a (hnt.1 hc.1) (htm.1 hc.2)]
    have e1 : (u ++ q :: v).filter (fun r => r.input = x ∧ a ∈ S' r) =
        (u ++ q :: v).filter (fun r => r.input = x ∧ a ∈ S r) := by
      apply List.filter_congr
      intro r hr
      rw [decide_eq_decide, hL r ((hmem r).2 hr), hL' r hr, lead_congr hmem]
    rw [e1]
    simp only [Option.getD_some, List.filter_append, List.filter_cons, List.map_append]
    split
    · rename_i hd
      have ho : q.output ∈ (u.filter (fun r => r.input = x ∧ a ∈ S r)).map (·.output) :=
        List.mem_map_of_mem (List.mem_filter.2 ⟨hq, hd⟩)
      exact ⟨sameRuns_insert _ _ _ ho, sameRuns_remove _ _ _ ho⟩
    · exact ⟨.refl _, .refl _⟩
  · rw [hS.none x a hc, hS'.none x a (by rw [← hnt, ← htm]; exact hc)]
    exact ⟨.refl _, .refl _⟩

/-- **C53.** Without a solver, listing a production a second time, anywhere behind its first
occurrence, does not change which inputs give `Ok` and with which tree, which give `Err`, which panic
and which are never answered. -/
theorem C53_duplicate_production (h h' : HashOrder T) (eps init : T) (u v : List (Production T))
    (q : Production T) (hq : q ∈ u) (g g' : Grammar T)
    (hg : Grammar.new h eps init (u ++ v) = .ok g)
    (hg' : Grammar.new h' eps init (u ++ q :: v) = .ok g') (p p' : Parser σ L T)
    (hp : Built h g none p) (hp' : Built h' g' none p') (tokens : List (Token L T)) (s : σ) :
    (∀ tree s', Parses p tokens s (.ok tree) s' ↔ Parses p' tokens s (.ok tree) s') ∧
    ((∃ f s', Parses p tokens s (.err f) s') ↔ ∃ f s', Parses p' tokens s (.err f) s') ∧
    (ParsePanics p tokens s ↔ ParsePanics p' tokens s) ∧
    (ParseDiverges p tokens s ↔ ParseDiverges p' tokens s) := by
  cases tokens with
  | nil =>
    have e : ∀ (p : Parser σ L T) n, p.parseFromTokens n [] s = .panic .emptyInput := fun _ _ => rfl
    have np : ∀ (p : Parser σ L T) r s', ¬ Parses p [] s r s' := by
      rintro p r s' ⟨n, hn⟩
      have := hn n (Nat.le_refl _)
      simp only [e] at this
      exact absurd this (by simp)
    have nd : ∀ (p : Parser σ L T), ¬ ParseDiverges p [] s := by
      intro p hd
      have := hd 0
      simp only [e] at this
      exact absurd this (by simp)
    exact ⟨fun _ _ => iff_of_false (np _ _ _) (np _ _ _),
      iff_of_false (fun ⟨_, _, h⟩ => np _ _ _ h) (fun ⟨_, _, h⟩ => np _ _ _ h),
      iff_of_true (C18_empty_input_panics p s) (C18_empty_input_panics p' s),
      iff_of_false (nd p) (nd p')⟩
  | cons t ts =>
    obtain ⟨a1, a2, a3, a4⟩ := C24_ordered_choice h eps init (u ++ v) g hg p hp t ts s
    obtain ⟨b1, b2, b3, b4⟩ := C24_ordered_choice h' eps init (u ++ q :: v) g' hg' p' hp' t ts s
    have hmem : ∀ r, r ∈ u ++ v ↔ r ∈ u ++ q :: v := by
      intro r
      simp only [List.mem_append, List.mem_cons]
      constructor
      · rintro (h | h)
        · exact .inl h
        · exact .inr (.inr h)
      · rintro (h | rfl | h)
        · exact .inl h
        · exact .inl hq
        · exact .inr h
    have he : ¬ IsNonTerminal (u ++ v) eps := by
      rintro ⟨r, hr, e⟩
      exact ((Grammar.new_eq_ok_iff h eps init (u ++ v)).1 ⟨g, hg⟩ r hr).1 e
    have he' : ¬ IsNonTerminal (u ++ q :: v) eps := by rwa [← isNonTerminal_congr hmem]
    have hs := fun x a => sameRuns_of_duplicate hq hg hg' hp hp' x a
    have f1 := fun r => choice_same (tokens := t :: ts) (x := init) (pos := 0) he (isNonTerminal_congr hmem)
      (fun x a => (hs x a).1) (hs init t.tType).1 (r := r)
    have f2 := fun r => choice_same (tokens := t :: ts) (x := init) (pos := 0) he'
      (fun x => (isNonTerminal_congr hmem x).symm) (fun x a => (hs x a).2) (hs init t.tType).2 (r := r)
    refine ⟨?_, ?_, ?_, ?_⟩
    · intro tree s'
      rw [a1, b1]
      refine and_congr_right fun _ => ⟨?_, ?_⟩
      · rintro ⟨k, rest, hc⟩
        obtain ⟨r', h1, h2⟩ := f1 _ hc
        match r', h1, h2 with
        | .found (n, k', rest'), h1, h2 =>
          simp only [Search.noRest, Search.found.injEq, Prod.mk.injEq] at h2
          obtain ⟨rfl, rfl⟩ := h2
          exact ⟨_, _, h1⟩
      · rintro ⟨k, rest, hc⟩
        obtain ⟨r', h1, h2⟩ := f2 _ hc
        match r', h1, h2 with
        | .found (n, k', rest'), h1, h2 =>
          simp only [Search.noRest, Search.found.injEq, Prod.mk.injEq] at h2
          obtain ⟨rfl, rfl⟩ := h2
          exact ⟨_, _, h1⟩
    · rw [a2, b2]
      constructor
      · intro hc
        obtain ⟨r', h1, h2⟩ := f1 _ hc
        match r', h1, h2 with
        | .failed, h1, _ => exact h1
      · intro hc
        obtain ⟨r', h1, h2⟩ := f2 _ hc
        match r', h1, h2 with
        | .failed, h1, _ => exact h1
    · rw [a3, b3]
      constructor
      · intro hc
        obtain ⟨r', h1, h2⟩ := f1 _ hc
        match r', h1, h2 with
        | .ranOut, h1, _ => exact h1
      · intro hc
        obtain ⟨r', h1, h2⟩ := f2 _ hc
        match r', h1, h2 with
        | .ranOut, h1, _ => exact h1
    · rw [a4, b4]
      refine not_congr ⟨?_, ?_⟩
      · rintro ⟨r, hc⟩
        obtain ⟨r', h1, _⟩ := f1 _ hc
        exact ⟨r', h1⟩
      · rintro ⟨r, hc⟩
        obtain ⟨r', h1, _⟩ := f2 _ hc
        exact ⟨r', h1⟩

/-- The hypotheses of C53 are met, and backtracking into the copy happens: `S → A b`, `A → a | a a | a`,
on `a a b`, where the second candidate of `A` is needed, and on `a c`, where all three fail. -/
example : ∃ g g' p p' tree tree' f f',
    (⟨2, [10]⟩ : Production Nat) ∈ [⟨1, [2, 11]⟩, ⟨2, [10]⟩, ⟨2, [10, 10]⟩] ∧
    Grammar.new (HashOrder.id Nat) 0 1 ([⟨1, [2, 11]⟩, ⟨2, [10]⟩, ⟨2, [10, 10]⟩] ++ []) = .ok g ∧
    Grammar.new (HashOrder.id Nat) 0 1 ([⟨1, [2, 11]⟩, ⟨2, [10]⟩, ⟨2, [10, 10]⟩] ++ ⟨2, [10]⟩ :: []) =
      .ok g' ∧
    Built (σ := Unit) (L := Unit) (HashOrder.id Nat) g none p ∧
    Built (σ := Unit) (L := Unit) (HashOrder.id Nat) g' none p' ∧
    Parses p [⟨none, 10⟩, ⟨none, 10⟩, ⟨none, 11⟩] () (.ok tree) () ∧
    Parses p' [⟨none, 10⟩, ⟨none, 10⟩, ⟨none, 11⟩] () (.ok tree') () ∧ tree = tree' ∧
    Parses p [⟨none, 10⟩, ⟨none, 12⟩] () (.err f) () ∧
    Parses p' [⟨none, 10⟩, ⟨none, 12⟩] () (.err f') () :=
  ⟨_, _, _, _, _, _, _, _, by simp, rfl, rfl, Parser.built_of_eval (n := 10) rfl,
    Parser.built_of_eval (n := 10) rfl, Parser.parse_returns (n := 20) rfl,
    Parser.parse_returns (n := 20) rfl, rfl, Parser.parse_returns (n := 20) rfl,
    Parser.parse_returns (n := 20) rfl⟩

/-- The report of an error does change: the copy is reported as a failed production of its own. -/
theorem C53_duplicate_changes_report : ∃ g g' p p' f f',
    Grammar.new (HashOrder.id Nat) 0 1 [⟨1, [10, 11]⟩] = .ok g ∧
    Grammar.new (HashOrder.id Nat) 0 1 [⟨1, [10, 11]⟩, ⟨1, [10, 11]⟩] = .ok g' ∧
    Built (σ := Unit) (L := Unit) (HashOrder.id Nat) g none p ∧
    Built (σ := Unit) (L := Unit) (HashOrder.id Nat) g' none p' ∧
    Parses p [⟨none, 10⟩, ⟨none, 12⟩] () (.err f) () ∧
    Parses p' [⟨none, 10⟩, ⟨none, 12⟩] () (.err f') () ∧
    f.failedProductions.length = 1 ∧ f'.failedProductions.length = 2 :=
  ⟨_, _, _, _, _, _, rfl, rfl, Parser.built_of_eval (n := 10) rfl,
    Parser.built_of_eval (n := 10) rfl, Parser.parse_returns (n := 20) rfl,
    Parser.parse_returns (n := 20) rfl, rfl, rfl⟩

/-- A solver that can fix single failed productions only. -/
def singleOnly : Solver Unit Unit Nat where
  fixFailedProduction _ pos _ := fun s => .ok (some ⟨pos + 1, .mk []⟩, s)
  fixFailedProductions _ _ _ := fun s => .ok (none, s)

/-- With a solver the outcome itself can change: with the copy the solver is asked about two failed
productions instead of one. -/
theorem C53_duplicate_changes_solver : ∃ g g' p p' f f',
    Grammar.new (HashOrder.id Nat) 0 1 [⟨1, [10, 11]⟩] = .ok g ∧
    Grammar.new (HashOrder.id Nat) 0 1 [⟨1, [10, 11]⟩, ⟨1, [10, 11]⟩] = .ok g' ∧
    Built (HashOrder.id Nat) g (some singleOnly) p ∧ Built (HashOrder.id Nat) g' (some singleOnly) p' ∧
    Parses p [⟨none, 10⟩, ⟨none, 12⟩] () (.fix f) () ∧
    Parses p' [⟨none, 10⟩, ⟨none, 12⟩] () (.err f') () :=
  ⟨_, _, _, _, _, _, rfl, rfl, Parser.built_of_eval_solver (n := 10) rfl,
    Parser.built_of_eval_solver (n := 10) rfl, Parser.parse_returns (n := 20) rfl,
    Parser.parse_returns (n := 20) rfl⟩

end Verif.Props
